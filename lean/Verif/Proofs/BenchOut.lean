import Verif.Model.BenchOut
import Verif.Spec.Average
import Mathlib.Data.Rat.Cast.CharZero
import Mathlib.Tactic.Ring
import Mathlib.Tactic.FieldSimp

/-! Lemmas for C95: printing and parsing the measurements. -/

namespace Banquet.Tools

theorem splitGo_skip (s : Char) (ss t cur rest : List Char) (h : s ∉ t) : splitGo (s :: ss) 0 cur (t ++ rest) = splitGo (s :: ss) 0 (cur ++ t) rest := by
  induction t generalizing cur with
  | nil => simp
  | cons c t ih =>
    rw [List.cons_append, splitGo]
    have : (s :: ss).isPrefixOf (c :: (t ++ rest)) = false := by
      rw [List.isPrefixOf_cons_cons]
      have : (s == c) = false := by simpa using fun e : s = c => h (by simp [e])
      rw [this, Bool.false_and]
    rw [this, if_neg (by simp), ih _ (fun hx => h (List.mem_cons_of_mem _ hx)), List.append_assoc]
    rfl

theorem splitGo_drop (sep : List Char) (n : Nat) (cur t rest : List Char) (h : t.length = n) : splitGo sep n cur (t ++ rest) = splitGo sep 0 cur rest := by
  induction n generalizing t with
  | zero => rw [List.length_eq_zero_iff.1 h]; rfl
  | succ n ih =>
    cases t with
    | nil => simp at h
    | cons c t => rw [List.cons_append, splitGo, ih t (by simpa using h)]

theorem splitGo_sep (s : Char) (ss cur rest : List Char) : splitGo (s :: ss) 0 cur (s :: ss ++ rest) = cur :: splitGo (s :: ss) 0 [] rest := by
  rw [List.cons_append, splitGo, if_pos, splitGo_drop _ _ _ ss rest (by simp)]
  rw [List.isPrefixOf_iff_prefix, ← List.cons_append]
  exact List.prefix_append _ _

theorem splitGo_last (s : Char) (ss t cur : List Char) (h : s ∉ t) : splitGo (s :: ss) 0 cur t = [cur ++ t] := by
  have := splitGo_skip s ss t cur [] h
  rw [List.append_nil] at this
  rw [this, splitGo]

theorem linesGo_line (t cur rest : List Char) (h : ∀ c ∈ t, isBreak c = false) : linesGo cur (t ++ '\n' :: rest) = (cur ++ t) :: linesGo [] rest := by
  induction t generalizing cur with
  | nil => rw [List.nil_append, linesGo, if_pos (by decide), List.append_nil]
  | cons c t ih =>
    rw [List.cons_append, linesGo, if_neg (by simp [h c (by simp)]), ih _ (fun x hx => h x (by simp [hx])), List.append_assoc]
    rfl

/-! ## Characters -/

/-- The characters of numbers and commas. -/
def plain (c : Char) : Bool := c.isDigit || c == ','

theorem isDigit_range {c : Char} (h : c.isDigit = true) : 48 ≤ c.toNat ∧ c.toNat ≤ 57 := by
  rw [Char.isDigit] at h
  simp only [Bool.and_eq_true, decide_eq_true_eq, ge_iff_le] at h
  exact ⟨UInt32.le_iff_toNat_le.1 h.1, UInt32.le_iff_toNat_le.1 h.2⟩

theorem plain_range {c : Char} (h : plain c = true) : 44 ≤ c.toNat ∧ c.toNat ≤ 57 := by
  unfold plain at h
  rcases (Bool.or_eq_true _ _).mp h with h | h
  · have := isDigit_range h; omega
  · rw [beq_iff_eq.1 h]; decide

theorem break_false {c : Char} (h1 : 32 ≤ c.toNat) (h2 : c.toNat < 128) : isBreak c = false := by
  unfold isBreak
  rw [List.contains_eq_mem]
  simp only [List.mem_cons, List.not_mem_nil, or_false, decide_eq_false_iff_not]
  omega

theorem space_false {c : Char} (h1 : 33 ≤ c.toNat) (h2 : c.toNat < 128) : isSpace c = false := by
  unfold isSpace
  have : [0x85, 0xA0, 0x1680, 0x2028, 0x2029, 0x202F, 0x205F, 0x3000].contains c.toNat = false := by
    rw [List.contains_eq_mem]
    simp only [List.mem_cons, List.not_mem_nil, or_false, decide_eq_false_iff_not]
    omega
  simp only [this, Bool.or_false, Bool.or_eq_false_iff, Bool.and_eq_false_iff, decide_eq_false_iff_not]
  omega

theorem digits_isDigit {n : Nat} {c : Char} (h : c ∈ Nat.toDigits 10 n) : c.isDigit = true := Nat.isDigit_of_mem_toDigits (by decide) (by decide) h

theorem not_mem_of_plain {l : List Char} (h : ∀ c ∈ l, plain c = true) {x : Char} (hx : plain x = false) : x ∉ l := fun hm => by
  rw [h x hm] at hx; exact absurd hx (by simp)

theorem strip_eq {l : List Char} (h : ∀ c ∈ l, isSpace c = false) : strip l = l := by
  have key : ∀ l : List Char, (∀ c ∈ l, isSpace c = false) → l.dropWhile isSpace = l := fun l h => by
    cases l with
    | nil => rfl
    | cons c l => rw [List.dropWhile_cons_of_neg (by simp [h c (by simp)])]
  rw [strip, key l h, key l.reverse (fun c hc => h c (List.mem_reverse.1 hc)), List.reverse_reverse]

theorem strip_plain {l : List Char} (h : ∀ c ∈ l, plain c = true) : strip l = l :=
  strip_eq fun c hc => by
    have := plain_range (h c hc)
    exact space_false (by omega) (by omega)

theorem plain_fmtU (w : W64) : ∀ c ∈ fmtU w, plain c = true := fun c hc => by
  unfold plain
  rw [digits_isDigit hc, Bool.true_or]

theorem plain_fmtRow (t : Timing) : ∀ c ∈ fmtRow t, plain c = true := by
  intro c hc
  unfold fmtRow at hc
  simp only [List.mem_append, List.mem_cons] at hc
  have hcomma : plain ',' = true := by decide
  rcases hc with h | rfl | h | rfl | h | rfl | h | rfl | h | rfl | h
  all_goals first | exact hcomma | exact plain_fmtU _ c h

/-! ## Numbers -/

theorem digitsGo_eq (l : List Char) (h : ∀ c ∈ l, c.isDigit = true) (ok : Bool) (acc : Nat) : digitsGo ok acc l = if l = [] then (if ok then some acc else none) else some (Nat.ofDigitChars 10 l acc) := by
  induction l generalizing ok acc with
  | nil => rw [digitsGo, if_pos rfl]
  | cons c l ih =>
    rw [digitsGo, if_pos (h c (by simp)), ih (fun x hx => h x (by simp [hx])), if_neg (List.cons_ne_nil c l), Nat.ofDigitChars_cons]
    cases l with
    | nil => rfl
    | cons d l => rw [if_neg (by simp)]; rfl

theorem pyInt_fmtU (w : W64) : pyInt (fmtU w) = some (w.toNat : Int) := by
  have hd : ∀ c ∈ fmtU w, c.isDigit = true := fun c hc => digits_isDigit hc
  have e : digitsGo false 0 (fmtU w) = some w.toNat := by
    rw [digitsGo_eq _ hd, if_neg (by unfold fmtU; exact Nat.toDigits_ne_nil), fmtU, Nat.ofDigitChars_ten_toDigits]
  unfold pyInt
  rw [strip_plain (plain_fmtU w)]
  split
  · next ds h => exact absurd (hd '-' (by rw [h]; simp)) (by decide)
  · next ds h => exact absurd (hd '+' (by rw [h]; simp)) (by decide)
  · rw [e]; rfl

theorem comma_fmtU (w : W64) : ',' ∉ fmtU w := fun h => absurd (digits_isDigit h) (by decide)

theorem split_fmtRow (t : Timing) : split [','] (fmtRow t) = [fmtU t.keygen, fmtU t.sign, fmtU t.verify, fmtU t.size, fmtU t.serialize, fmtU t.deserialize] := by
  have step : ∀ (w : W64) (rest : List Char), splitGo [','] 0 [] (fmtU w ++ ',' :: rest) = fmtU w :: splitGo [','] 0 [] rest := fun w rest => by
    rw [splitGo_skip ',' [] _ _ _ (comma_fmtU w), List.nil_append]
    exact splitGo_sep ',' [] (fmtU w) rest
  unfold split fmtRow
  rw [step, step, step, step, step, splitGo_last _ _ _ _ (comma_fmtU _), List.nil_append]

theorem column_fmtU (vals : List (List Char)) (k : Nat) (w : W64) (h : vals[k]? = some (fmtU w)) : column vals k = .ok (w.toNat : Int) := by
  unfold column
  rw [h]
  simp only [pyInt_fmtU]

theorem addLine_fmtRow (s : Sums) (t : Timing) :
    addLine s (fmtRow t) = .ok ⟨s.keygen + t.keygen.toNat, s.sign + t.sign.toNat, s.ver + t.verify.toNat, s.size + t.size.toNat, s.ser + t.serialize.toNat, s.deser + t.deserialize.toNat, s.count + 1⟩ := by
  unfold addLine
  rw [strip_plain (plain_fmtRow t), if_neg, split_fmtRow]
  · generalize hv : [fmtU t.keygen, fmtU t.sign, fmtU t.verify, fmtU t.size, fmtU t.serialize, fmtU t.deserialize] = vals
    simp only [column_fmtU vals 0 t.keygen (by rw [← hv]; rfl), column_fmtU vals 1 t.sign (by rw [← hv]; rfl), column_fmtU vals 2 t.verify (by rw [← hv]; rfl), column_fmtU vals 3 t.size (by rw [← hv]; rfl),
      column_fmtU vals 4 t.serialize (by rw [← hv]; rfl), column_fmtU vals 5 t.deserialize (by rw [← hv]; rfl)]
    rfl
  · intro h
    unfold fmtRow at h
    simp at h

theorem foldlM_rows (ts : List Timing) (s : Sums) :
    (ts.map fmtRow).foldlM addLine s = .ok ⟨s.keygen + ((ts.map fun t => t.keygen.toNat).sum : Nat), s.sign + ((ts.map fun t => t.sign.toNat).sum : Nat), s.ver + ((ts.map fun t => t.verify.toNat).sum : Nat),
      s.size + ((ts.map fun t => t.size.toNat).sum : Nat), s.ser + ((ts.map fun t => t.serialize.toNat).sum : Nat), s.deser + ((ts.map fun t => t.deserialize.toNat).sum : Nat), s.count + ts.length⟩ := by
  induction ts generalizing s with
  | nil => simp; rfl
  | cons t ts ih =>
    rw [List.map_cons, List.foldlM_cons, addLine_fmtRow]
    refine (ih _).trans ?_
    simp only [List.map_cons, List.sum_cons, Nat.cast_add, List.length_cons, ← add_assoc, Nat.add_right_comm _ 1]

/-! ## Lines -/

theorem fmtD_mem {w : BitVec 32} {c : Char} (h : c ∈ fmtD w) : c = '-' ∨ c.isDigit = true := by
  unfold fmtD at h
  split at h
  · rcases List.mem_cons.1 h with h | h
    · exact .inl h
    · exact .inr (digits_isDigit h)
  · exact .inr (digits_isDigit h)

/-- Characters of the texts the tools print. -/
def shown (c : Char) : Bool := 32 ≤ c.toNat && c.toNat < 128 && c != 'I'

theorem shown_fmtD (w : BitVec 32) : ∀ c ∈ fmtD w, shown c = true := fun c hc => by
  rcases fmtD_mem hc with rfl | h
  · decide
  · have := isDigit_range h
    unfold shown
    simp only [Bool.and_eq_true, decide_eq_true_eq, bne_iff_ne]
    refine ⟨⟨by omega, by omega⟩, ?_⟩
    rintro rfl
    exact absurd h (by decide)

theorem shown_instanceText (s : Shown) : ∀ c ∈ instanceText s, shown c = true := by
  intro c hc
  unfold instanceText at hc
  simp only [List.mem_append] at hc
  have k : ∀ l : List Char, l.all shown = true → c ∈ l → shown c = true := fun l h hm => List.all_eq_true.1 h c hm
  rcases hc with ((((((((((h | h) | h) | h) | h) | h) | h) | h) | h) | h) | h) | h
  all_goals first | exact shown_fmtD _ c h | exact k _ (by decide) h

theorem shown_row (t : Timing) : ∀ c ∈ fmtRow t, shown c = true := fun c hc => by
  have := plain_range (plain_fmtRow t c hc)
  unfold shown
  simp only [Bool.and_eq_true, decide_eq_true_eq, bne_iff_ne]
  refine ⟨⟨by omega, by omega⟩, ?_⟩
  rintro rfl
  exact absurd this (by decide)

theorem shown_header : ∀ c ∈ header, shown c = true := fun c hc => List.all_eq_true.1 (by decide : header.all shown = true) c hc

theorem shown_break {c : Char} (h : shown c = true) : isBreak c = false := by
  unfold shown at h
  simp only [Bool.and_eq_true, decide_eq_true_eq] at h
  exact break_false h.1.1 h.1.2

theorem shown_not_I {l : List Char} (h : ∀ c ∈ l, shown c = true) : 'I' ∉ l := fun hm => absurd (h _ hm) (by decide)

/-- A run without the words `Instance: `. -/
def body (s : Shown) (ts : List Timing) : List Char := instanceText s ++ '\n' :: printTimings ts

theorem body_not_I (s : Shown) (ts : List Timing) : 'I' ∉ body s ts := by
  unfold body printTimings
  simp only [List.mem_append, List.mem_cons, List.mem_flatMap, List.not_mem_nil, or_false, not_or, not_exists, not_and]
  exact ⟨shown_not_I (shown_instanceText s), by decide, shown_not_I shown_header, by decide, fun t _ => ⟨shown_not_I (shown_row t), by decide⟩⟩

theorem linesGo_rows (ts : List Timing) : linesGo [] (ts.flatMap fun t => fmtRow t ++ ['\n']) = ts.map fmtRow := by
  induction ts with
  | nil => rfl
  | cons t ts ih =>
    rw [List.flatMap_cons, List.append_assoc]
    refine (linesGo_line (fmtRow t) [] _ fun c hc => shown_break (shown_row t c hc)).trans ?_
    exact congrArg (fmtRow t :: ·) ih

theorem linesGo_body (s : Shown) (ts : List Timing) : linesGo [] (body s ts) = instanceText s :: header :: ts.map fmtRow := by
  unfold body printTimings
  rw [linesGo_line _ _ _ fun c hc => shown_break (shown_instanceText s c hc), linesGo_line _ _ _ fun c hc => shown_break (shown_header c hc), linesGo_rows]
  rfl

theorem split_runs (bodies : List (List Char)) (h : ∀ b ∈ bodies, 'I' ∉ b) (cur : List Char) :
    splitGo "Instance: ".toList 0 cur (bodies.flatMap fun b => "Instance: ".toList ++ b) = cur :: bodies := by
  induction bodies generalizing cur with
  | nil => rfl
  | cons b bs ih =>
    rw [List.flatMap_cons, List.append_assoc]
    refine (splitGo_sep 'I' "nstance: ".toList cur _).trans ?_
    have e := splitGo_skip 'I' "nstance: ".toList b [] (bs.flatMap fun b => "Instance: ".toList ++ b) (h b (by simp))
    rw [List.nil_append] at e
    exact congrArg (cur :: ·) (e.trans (ih (fun x hx => h x (by simp [hx])) b))

theorem parseBench_bodies (bodies : List (List Char)) (h : ∀ b ∈ bodies, 'I' ∉ b) (hne : bodies ≠ []) :
    parseBench (bodies.flatMap fun b => "Instance: ".toList ++ b) = bodies.mapM summarise := by
  unfold parseBench split
  simp only
  rw [split_runs bodies h []]
  rw [if_pos]
  · rfl
  · have := List.length_pos_iff.2 hne
    simp only [List.length_cons]
    omega

theorem summarise_body (s : Shown) (ts : List Timing) (hne : ts ≠ []) :
    summarise (body s ts) = .ok ⟨instanceText s, header, Spec.mean (ts.map fun t => t.keygen.toNat) / 1000, Spec.mean (ts.map fun t => t.sign.toNat) / 1000, Spec.mean (ts.map fun t => t.verify.toNat) / 1000,
      Spec.mean (ts.map fun t => t.size.toNat) / 1024, Spec.mean (ts.map fun t => t.serialize.toNat) / 1000, Spec.mean (ts.map fun t => t.deserialize.toNat) / 1000⟩ := by
  unfold summarise
  rw [linesGo_body]
  simp only
  rw [foldlM_rows]
  have hl := List.length_pos_iff.2 hne
  refine (if_neg (by simp only [Nat.zero_add]; omega)).trans ?_
  have hm : ∀ (f : Timing → Nat) (d : ℚ), (((0 : Int) + ((ts.map f).sum : Nat) : Int) : ℚ) / d / ((0 + ts.length : Nat) : ℚ) = Spec.mean (ts.map f) / d := fun f d => by
    unfold Spec.mean
    rw [List.length_map, Nat.zero_add, zero_add, div_right_comm, Int.cast_natCast]
    congr 2
    exact map_list_sum (Nat.castRingHom ℚ) _
  simp only [hm]

theorem summarise_noRows (s : Shown) : summarise (body s []) = .error .thrown := by
  unfold summarise
  rw [linesGo_body]
  rfl

theorem mapM_thrown {α β : Type} (f : α → M β) (l : List α) (h : ∀ x ∈ l, (∃ y, f x = .ok y) ∨ f x = .error .thrown) (hx : ∃ x ∈ l, f x = .error .thrown) : l.mapM f = .error .thrown := by
  induction l with
  | nil => obtain ⟨x, hx, _⟩ := hx; simp at hx
  | cons a l ih =>
    rw [List.mapM_cons]
    rcases h a (by simp) with ⟨y, hy⟩ | hy
    · obtain ⟨x, h1, h2⟩ := hx
      rcases List.mem_cons.1 h1 with rfl | h1
      · rw [hy] at h2; exact absurd h2 (by simp)
      · rw [hy, ih (fun z hz => h z (by simp [hz])) ⟨x, h1, h2⟩]
        rfl
    · rw [hy]; rfl

end Banquet.Tools
