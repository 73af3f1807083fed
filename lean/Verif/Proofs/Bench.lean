import Verif.Model.Bench
import Verif.Spec.Line
import Mathlib.Tactic.Ring
import Mathlib.Data.List.Forall2

/-! The command lines of the benchmark tools. -/

namespace Banquet.Bench
open Spec.Line

/-! ## Numbers -/

theorem digit_ofNat (b : Byte) (h : isDigit b = true) : b = digit ⟨b.toNat - 48, by simp [isDigit] at h; omega⟩ := by
  simp only [isDigit, Bool.and_eq_true, decide_eq_true_eq] at h
  apply BitVec.eq_of_toNat_eq
  simp only [digit, BitVec.toNat_ofNat]
  omega

theorem digit_is (d : Fin 10) : isDigit (digit d) = true := by revert d; decide

theorem digit_val (d : Fin 10) : (digit d).toNat - 48 = d.val := by revert d; decide

theorem space_iff (b : Byte) : isSpace b = true ↔ b ∈ space := by revert b; decide +kernel

theorem value_go (ds : List (Fin 10)) : ∀ n, (ds.map digit).foldl (fun n d => 10 * n + (d.toNat - 48)) n = n * 10 ^ ds.length + number ds := by
  induction ds with
  | nil => intro n; simp [number]
  | cons d ds ih =>
    intro n
    rw [List.map_cons, List.foldl_cons, ih, digit_val, number, List.length_cons, pow_succ]
    ring

theorem value_number (ds : List (Fin 10)) : value (ds.map digit) = number ds := by
  rw [value, value_go]
  simp

/-- The longest prefix of digits. -/
theorem digits_split (s : Bytes) : ∃ (ds : List (Fin 10)) (rest : Bytes), s = ds.map digit ++ rest ∧ s.takeWhile isDigit = ds.map digit ∧ ∀ d, rest.head? ≠ some (digit d) := by
  induction s with
  | nil => exact ⟨[], [], rfl, rfl, by simp⟩
  | cons b s ih =>
    by_cases h : isDigit b = true
    · obtain ⟨ds, rest, h1, h2, h3⟩ := ih
      refine ⟨⟨b.toNat - 48, by simp [isDigit] at h; omega⟩ :: ds, rest, ?_, ?_, h3⟩
      · rw [List.map_cons, List.cons_append, ← h1, ← digit_ofNat b h]
      · rw [List.takeWhile_cons_of_pos h, List.map_cons, h2, ← digit_ofNat b h]
    · refine ⟨[], b :: s, rfl, by rw [List.takeWhile_cons_of_neg h]; rfl, fun d hd => h ?_⟩
      cases hd
      exact digit_is d

theorem digits_unique (ds : List (Fin 10)) (rest : Bytes) (h : ∀ d, rest.head? ≠ some (digit d)) : (ds.map digit ++ rest).takeWhile isDigit = ds.map digit := by
  induction ds with
  | nil =>
    cases rest with
    | nil => rfl
    | cons b r =>
      refine List.takeWhile_cons_of_neg fun hb => h ⟨b.toNat - 48, by simp [isDigit] at hb; omega⟩ ?_
      rw [List.head?_cons]
      exact congrArg some (digit_ofNat b hb)
  | cons d ds ih => rw [List.map_cons, List.cons_append, List.takeWhile_cons_of_pos (digit_is d), ih]

theorem spaces_drop (sp r : Bytes) (h : ∀ b ∈ sp, b ∈ space) : (sp ++ r).dropWhile isSpace = r.dropWhile isSpace := by
  induction sp with
  | nil => rfl
  | cons b sp ih => rw [List.cons_append, List.dropWhile_cons_of_pos ((space_iff b).2 (h b (by simp))), ih fun c hc => h c (by simp [hc])]

theorem digit_not (d : Fin 10) : digit d ∉ space ∧ digit d ≠ 45 ∧ digit d ≠ 43 := by revert d; decide

theorem drop_self (r : Bytes) (h : ∀ b, r.head? = some b → b ∉ space) : r.dropWhile isSpace = r := by
  cases r with
  | nil => rfl
  | cons b r => exact List.dropWhile_cons_of_neg fun hb => h b rfl ((space_iff b).1 hb)

theorem afterSign_plain (s r : Bytes) (h : s.dropWhile isSpace = r) (h1 : r.head? ≠ some 45) (h2 : r.head? ≠ some 43) : afterSign s = (false, r) := by
  unfold afterSign
  rw [h]
  split
  · simp at h1
  · simp at h2
  · rfl

theorem mem_takeWhile {s : Bytes} {b : Byte} (h : b ∈ s.takeWhile isSpace) : isSpace b = true := by
  induction s with
  | nil => cases h
  | cons c s ih =>
    by_cases hc : isSpace c = true
    · rw [List.takeWhile_cons_of_pos hc] at h
      rcases List.mem_cons.1 h with rfl | h
      · exact hc
      · exact ih h
    · rw [List.takeWhile_cons_of_neg hc] at h
      cases h

/-- The sign and the digits that strtol takes are those of the specification. -/
theorem begins_iff (s : Bytes) (neg : Bool) (n : Nat) : Begins s neg n ↔ (afterSign s).1 = neg ∧ value ((afterSign s).2.takeWhile isDigit) = n := by
  constructor
  · rintro ⟨sp, sign, rest, ds, rfl, h1, h2, rfl, h3⟩
    have hd : (sp ++ sign ++ ds.map digit ++ rest).dropWhile isSpace = (sign ++ (ds.map digit ++ rest)).dropWhile isSpace := by
      rw [List.append_assoc, List.append_assoc, spaces_drop _ _ h1]
    have fin : value ((ds.map digit ++ rest).takeWhile isDigit) = number ds := by rw [digits_unique ds rest h2, value_number]
    rcases h3 with ⟨rfl, rfl⟩ | ⟨rfl, rfl⟩ | ⟨rfl, rfl, h3⟩
    · have : afterSign (sp ++ [45] ++ ds.map digit ++ rest) = (true, ds.map digit ++ rest) := by
        unfold afterSign
        rw [hd, drop_self _ (by rintro b hb; cases hb; decide)]
        rfl
      rw [this]
      exact ⟨rfl, fin⟩
    · have : afterSign (sp ++ [43] ++ ds.map digit ++ rest) = (false, ds.map digit ++ rest) := by
        unfold afterSign
        rw [hd, drop_self _ (by rintro b hb; cases hb; decide)]
        rfl
      rw [this]
      exact ⟨rfl, fin⟩
    · have hh : ∀ b, (ds.map digit ++ rest).head? = some b → b ∉ space ∧ b ≠ 45 ∧ b ≠ 43 := by
        cases ds with
        | nil => exact h3 rfl
        | cons d ds => rintro b hb; cases hb; exact digit_not d
      have : afterSign (sp ++ [] ++ ds.map digit ++ rest) = (false, ds.map digit ++ rest) := by
        refine afterSign_plain _ _ ?_ (fun h => (hh _ h).2.1 rfl) fun h => (hh _ h).2.2 rfl
        rw [hd, List.nil_append, drop_self _ fun b hb => (hh b hb).1]
      rw [this]
      exact ⟨rfl, fin⟩
  · rintro ⟨h1, h2⟩
    have hs : s = s.takeWhile isSpace ++ s.dropWhile isSpace := List.takeWhile_append_dropWhile.symm
    have hsp : ∀ b ∈ s.takeWhile isSpace, b ∈ space := fun b hb => (space_iff b).1 (mem_takeWhile hb)
    have hhd : ∀ b, (s.dropWhile isSpace).head? = some b → b ∉ space := fun b hb hm => by
      have := List.head?_dropWhile_not isSpace s
      rw [hb] at this
      simp [(space_iff b).2 hm] at this
    obtain ⟨ds, rest, e1, e2, e3⟩ := digits_split (afterSign s).2
    rw [e2, value_number] at h2
    refine ⟨s.takeWhile isSpace, ?_⟩
    unfold afterSign at h1 e1 e2
    split at h1
    · rename_i r hr
      rw [hr] at e1
      have e1' : r = ds.map digit ++ rest := e1
      refine ⟨[45], rest, ds, ?_, hsp, e3, h2.symm, .inl ⟨rfl, h1.symm⟩⟩
      rw [List.append_assoc, List.append_assoc, ← e1', List.singleton_append]
      exact hs.trans (by rw [hr]; rfl)
    · rename_i r hr
      rw [hr] at e1
      have e1' : r = ds.map digit ++ rest := e1
      refine ⟨[43], rest, ds, ?_, hsp, e3, h2.symm, .inr (.inl ⟨rfl, h1.symm⟩)⟩
      rw [List.append_assoc, List.append_assoc, ← e1', List.singleton_append]
      exact hs.trans (by rw [hr]; rfl)
    · rename_i n1 n2
      have e1' : s.dropWhile isSpace = ds.map digit ++ rest := by
        split at e1
        · rename_i r hr; exact absurd hr (n1 r)
        · rename_i r hr; exact absurd hr (n2 r)
        · exact e1
      refine ⟨[], rest, ds, ?_, hsp, e3, h2.symm, .inr (.inr ⟨rfl, h1.symm, fun hds b hb => ?_⟩)⟩
      · rw [List.append_nil, List.append_assoc, ← e1', ← hs]
      · subst hds
        rw [List.map_nil, List.nil_append] at e1'
        refine ⟨hhd b (by rw [e1']; exact hb), fun h => ?_, fun h => ?_⟩
        · subst h
          cases hr : rest with
          | nil => rw [hr] at hb; cases hb
          | cons c r => rw [hr] at hb e1'; cases hb; exact n1 r e1'
        · subst h
          cases hr : rest with
          | nil => rw [hr] at hb; cases hb
          | cons c r => rw [hr] at hb e1'; cases hb; exact n2 r e1'

theorem parseU32_value (s : Bytes) : parseU32 s = if (afterSign s).1 then (if value ((afterSign s).2.takeWhile isDigit) = 0 then some 0 else none)
    else if value ((afterSign s).2.takeWhile isDigit) < 2 ^ 32 then some (value ((afterSign s).2.takeWhile isDigit)) else none := by
  unfold parseU32 parseLong strtol
  dsimp only
  generalize (afterSign s).1 = neg
  generalize value ((afterSign s).2.takeWhile isDigit) = n
  have key : ∀ v : Int, (if v < 0 ∨ v.toNat > 2 ^ 32 - 1 then none else some v.toNat) = if 0 ≤ v ∧ v < 2 ^ 32 then some v.toNat else none := by
    intro v
    by_cases h : 0 ≤ v ∧ v < 2 ^ 32
    · rw [if_pos h, if_neg (by omega)]
    · rw [if_neg h, if_pos (by omega)]
  cases neg with
  | true =>
    by_cases h : n > 2 ^ 63
    · have h0 : n ≠ 0 := by omega
      simp only [if_true, if_pos h, if_neg h0]
      rfl
    · by_cases h0 : n = 0
      · subst h0; rfl
      · simp only [if_true, if_neg h, if_neg h0, Bool.false_and, Bool.or_self, Bool.false_eq_true, if_false]
        rw [if_pos (Or.inl (by omega))]
  | false =>
    by_cases h : n > 2 ^ 63 - 1
    · have h0 : ¬n < 2 ^ 32 := by omega
      simp only [Bool.false_eq_true, if_false, if_pos h, if_neg h0]
      rfl
    · simp only [if_neg h, Bool.false_and, Bool.or_self, Bool.false_eq_true, if_false]
      rw [key, Int.toNat_natCast]
      by_cases h0 : n < 2 ^ 32
      · rw [if_pos h0, if_pos (by omega)]
      · rw [if_neg h0, if_neg (by omega)]

/-- `parse_uint32_t` accepts exactly the arguments that begin with a number below 2^32, or with a negated zero. -/
theorem parseU32_iff (s : Bytes) (v : Nat) : parseU32 s = some v ↔ ReadAs s v := by
  rw [ReadAs, begins_iff, begins_iff, parseU32_value]
  generalize (afterSign s).1 = neg
  generalize value ((afterSign s).2.takeWhile isDigit) = n
  cases neg with
  | true =>
    by_cases h : n = 0
    · simp [h]; omega
    · simp [h]
  | false =>
    by_cases h : n < 2 ^ 32
    · simp; omega
    · simp; omega

/-! ## Options -/

/-- The arguments of the options, if all of them are good. -/
def args : List Opt → Option (List Bytes)
  | [] => some []
  | .iter v :: os => (args os).map (v :: ·)
  | .bad :: _ => none

/-- A line on which the first argument belongs to an option before it. -/
def ParsedAfter (pending : Bool) (l its words : List Bytes) : Prop :=
  if pending then ∃ v rest its', l = v :: rest ∧ its = v :: its' ∧ Parsed rest its' words else Parsed l its words

theorem prefix_names (n : Bytes) : n.isPrefixOf [105, 116, 101, 114] = true ↔ n ∈ ([[105, 116, 101, 114], [105, 116, 101], [105, 116], [105], []] : List Bytes) := by
  rw [List.isPrefixOf_iff_prefix]
  constructor
  · intro h
    have e := List.prefix_iff_eq_take.1 h
    have hl := h.length_le
    simp only [List.length_cons, List.length_nil] at hl
    generalize n.length = k at e hl
    subst e
    have : k = 0 ∨ k = 1 ∨ k = 2 ∨ k = 3 ∨ k = 4 := by omega
    rcases this with rfl | rfl | rfl | rfl | rfl <;> decide
  · intro h
    simp only [List.mem_cons, List.not_mem_nil, or_false] at h
    rcases h with rfl | rfl | rfl | rfl | rfl <;> decide

theorem name_split (name v : Bytes) (h : ∀ b ∈ name, b ≠ 61) : (name ++ 61 :: v).takeWhile (· != 61) = name ∧ (name ++ 61 :: v).dropWhile (· != 61) = 61 :: v := by
  induction name with
  | nil => exact ⟨rfl, rfl⟩
  | cons b n ih =>
    obtain ⟨h1, h2⟩ := ih fun c hc => h c (by simp [hc])
    have hb : (b != 61) = true := by simpa using h b (by simp)
    rw [List.cons_append]
    refine ⟨(List.takeWhile_cons_of_pos (p := fun x : Byte => x != 61) hb).trans (by rw [h1]), (List.dropWhile_cons_of_pos (p := fun x : Byte => x != 61) hb).trans h2⟩

theorem of_takeWhile {s : Bytes} {b : Byte} (h : b ∈ s.takeWhile (· != 61)) : b ≠ 61 := by
  induction s with
  | nil => cases h
  | cons c s ih =>
    by_cases hc : (c != 61) = true
    · rw [List.takeWhile_cons_of_pos (p := fun x : Byte => x != 61) hc] at h
      rcases List.mem_cons.1 h with rfl | h
      · simpa using hc
      · exact ih h
    · rw [List.takeWhile_cons_of_neg (p := fun x : Byte => x != 61) hc] at h
      cases h

theorem getopt_iff (l : List Bytes) : ∀ (pending : Bool) (its words : List Bytes), (args (getopt pending l).1 = some its ∧ (getopt pending l).2 = words) ↔ ParsedAfter pending l its words := by
  induction l with
  | nil =>
    intro pending its words
    cases pending with
    | true => simp [getopt, args, ParsedAfter]
    | false =>
      simp only [getopt, args, ParsedAfter, Bool.false_eq_true, if_false, Option.some.injEq]
      constructor
      · rintro ⟨rfl, rfl⟩; exact .done
      · intro h; cases h; exact ⟨rfl, rfl⟩
  | cons a l ih =>
    intro pending its words
    have cons : ∀ v, ((args (.iter v :: (getopt false l).1) = some its ∧ (getopt false l).2 = words) ↔ ∃ its', its = v :: its' ∧ Parsed l its' words) := by
      intro v
      have ih' := fun its => ih false its words
      simp only [ParsedAfter, Bool.false_eq_true, if_false] at ih'
      simp only [args, Option.map_eq_some_iff]
      constructor
      · rintro ⟨⟨w, h1, rfl⟩, h2⟩
        exact ⟨w, rfl, (ih' w).1 ⟨h1, h2⟩⟩
      · rintro ⟨w, rfl, h⟩
        obtain ⟨h1, h2⟩ := (ih' w).2 h
        exact ⟨⟨w, h1, rfl⟩, h2⟩
    cases pending with
    | true =>
      simp only [getopt, if_true, ParsedAfter]
      rw [cons]
      constructor
      · rintro ⟨w, rfl, h⟩; exact ⟨_, _, _, rfl, rfl, h⟩
      · rintro ⟨v, rest, w, h1, rfl, h⟩; cases h1; exact ⟨_, rfl, h⟩
    | false =>
      have ihT := ih true its words
      simp only [ParsedAfter, if_true] at ihT
      have ihF := fun words => ih false its words
      simp only [ParsedAfter, Bool.false_eq_true, if_false] at ihF ⊢
      simp only [getopt, Bool.false_eq_true, if_false]
      split
      · -- `--`
        constructor
        · rintro ⟨h1, rfl⟩; cases h1; exact .stop _
        · intro h
          generalize hx : ([45, 45] : Bytes) :: l = x at h
          cases h with
          | done => cases hx
          | stop => cases hx; exact ⟨rfl, rfl⟩
          | word _ _ _ _ h => cases hx; exact absurd (h _ rfl) (by simp)
          | short => cases hx
          | joined => cases hx
          | long name _ _ _ _ h => cases hx; simp at h
          | equals name v _ _ _ h => simp at hx
      · rename_i long hne
        split
        · rename_i hp
          rw [prefix_names] at hp
          split
          · rename_i hd
            have e : long.takeWhile (· != 61) = long := by
              have := List.takeWhile_append_dropWhile (p := (· != 61)) (l := long)
              rw [hd, List.append_nil] at this
              exact this
            rw [e] at hp
            rw [ihT]
            constructor
            · rintro ⟨v, rest, its', rfl, rfl, h⟩
              refine .long long v rest its' words ?_ h
              simp only [List.mem_cons, List.not_mem_nil, or_false] at hp ⊢
              rcases hp with h | h | h | h | h
              · exact .inl h
              · exact .inr (.inl h)
              · exact .inr (.inr (.inl h))
              · exact .inr (.inr (.inr h))
              · subst h; exact absurd rfl hne
            · intro h
              cases h with
              | stop => exact absurd rfl hne
              | word _ _ _ _ h => exact absurd (h _ rfl) (by simp)
              | long name v rest its' _ h1 h2 => exact ⟨_, _, _, rfl, rfl, h2⟩
              | equals name v _ its' _ h1 h2 =>
                exfalso
                have : (61 : Byte) ∈ (name ++ 61 :: v).takeWhile (· != 61) := by rw [e]; simp
                exact absurd rfl (of_takeWhile this)
          · rename_i c v hd
            rw [cons]
            have hc : c = 61 := by
              have := List.head?_dropWhile_not (· != 61) long
              rw [hd] at this
              simpa using this
            subst hc
            have e : long = long.takeWhile (· != 61) ++ 61 :: v := by rw [← hd]; exact List.takeWhile_append_dropWhile.symm
            constructor
            · rintro ⟨its', rfl, h⟩
              rw [e]
              exact .equals _ _ _ _ _ hp h
            · intro h
              generalize hx : (45 :: 45 :: long : Bytes) :: l = x at h
              cases h with
              | done => cases hx
              | stop => cases hx; exact absurd rfl hne
              | word _ _ _ _ h => cases hx; exact absurd (h _ rfl) (by simp)
              | short => cases hx
              | joined => cases hx
              | long name v' rest its' _ h1 h2 =>
                cases hx
                exfalso
                simp only [List.mem_cons, List.not_mem_nil, or_false] at h1
                rcases h1 with rfl | rfl | rfl | rfl <;> simp [List.dropWhile] at hd
              | equals name v' _ its' _ h1 h2 =>
                simp only [List.cons.injEq, true_and] at hx
                obtain ⟨rfl, rfl⟩ := hx
                have := (name_split name v' (by
                  simp only [List.mem_cons, List.not_mem_nil, or_false] at h1
                  rcases h1 with rfl | rfl | rfl | rfl | rfl <;> decide)).2
                rw [this] at hd
                cases hd
                exact ⟨_, rfl, h2⟩
        · rename_i hp
          rw [prefix_names] at hp
          constructor
          · rintro ⟨h, _⟩; cases h
          · intro h
            exfalso
            apply hp
            generalize hx : (45 :: 45 :: long : Bytes) :: l = x at h
            cases h with
            | done => cases hx
            | stop => cases hx; exact absurd rfl hne
            | word _ _ _ _ h => cases hx; exact absurd (h _ rfl) (by simp)
            | short => cases hx
            | joined => cases hx
            | long name v' rest its' _ h1 h2 =>
              cases hx
              simp only [List.mem_cons, List.not_mem_nil, or_false] at h1
              rcases h1 with rfl | rfl | rfl | rfl <;> decide
            | equals name v' _ its' _ h1 h2 =>
              simp only [List.cons.injEq, true_and] at hx
              obtain ⟨rfl, rfl⟩ := hx
              rw [(name_split name v' (by
                simp only [List.mem_cons, List.not_mem_nil, or_false] at h1
                rcases h1 with rfl | rfl | rfl | rfl | rfl <;> decide)).1]
              exact h1
      · -- `-i`
        rw [ihT]
        constructor
        · rintro ⟨v, rest, its', rfl, rfl, h⟩; exact .short v rest its' words h
        · intro h
          cases h with
          | word _ _ _ _ h => exact absurd (h _ rfl) (by simp)
          | short v rest its' _ h => exact ⟨_, _, _, rfl, rfl, h⟩
          | joined v _ _ _ h => exact absurd rfl h
      · rename_i v hne
        rw [cons]
        constructor
        · rintro ⟨its', rfl, h⟩; exact .joined v l its' words (fun e => hne (by rw [e])) h
        · intro h
          cases h with
          | word _ _ _ _ h => exact absurd (h _ rfl) (by simp)
          | short => exact absurd rfl hne
          | joined _ _ its' _ _ h => exact ⟨_, rfl, h⟩
      · rename_i b t h1 h2 h3 h4
        constructor
        · rintro ⟨h, _⟩; cases h
        · intro h
          generalize hx : (45 :: b :: t : Bytes) :: l = x at h
          cases h with
          | done => cases hx
          | stop => cases hx; exact (h1 rfl rfl).elim
          | word _ _ _ _ h => cases hx; exact absurd (h _ rfl) (by simp)
          | short => cases hx; exact (h3 rfl rfl).elim
          | joined => cases hx; exact (h4 rfl).elim
          | long => cases hx; exact (h2 rfl).elim
          | equals => cases hx; exact (h2 rfl).elim
      · rename_i h1 h2 h3 h4 h5
        have hw : ∀ t, a = 45 :: t → t = [] := by
          rintro t rfl
          cases t with
          | nil => rfl
          | cons b t => exact absurd rfl (h5 b t)
        constructor
        · rintro ⟨g1, rfl⟩
          exact .word a l its _ hw ((ihF _).1 ⟨g1, rfl⟩)
        · intro h
          generalize hx : a :: l = x at h
          cases h with
          | done => cases hx
          | stop => cases hx; exact absurd (hw _ rfl) (by simp)
          | word _ _ _ words' h h' =>
            cases hx
            obtain ⟨g1, g2⟩ := (ihF words').2 h'
            exact ⟨g1, by rw [g2]⟩
          | short => cases hx; exact absurd (hw _ rfl) (by simp)
          | joined => cases hx; exact absurd (hw _ rfl) (by simp)
          | long => cases hx; exact absurd (hw _ rfl) (by simp)
          | equals => cases hx; exact absurd (hw _ rfl) (by simp)

theorem readOptions_iff (os : List Opt) : ∀ d n, readOptions d os = some n ↔ ∃ its ns, args os = some its ∧ List.Forall₂ ReadAs its ns ∧ n = ns.getLastD d := by
  induction os with
  | nil =>
    intro d n
    simp only [readOptions, args, Option.some.injEq]
    constructor
    · rintro rfl; exact ⟨[], [], rfl, .nil, rfl⟩
    · rintro ⟨its, ns, rfl, h, rfl⟩; cases h; rfl
  | cons o os ih =>
    intro d n
    cases o with
    | bad => simp [readOptions, args]
    | iter v =>
      simp only [readOptions, args, Option.bind_eq_some_iff]
      constructor
      · rintro ⟨m, h1, h2⟩
        obtain ⟨its, ns, g1, g2, g3⟩ := (ih m n).1 h2
        exact ⟨v :: its, m :: ns, by rw [g1]; rfl, .cons ((parseU32_iff v m).1 h1) g2, by rw [g3, List.getLastD_cons]⟩
      · rintro ⟨its, ns, g1, g2, g3⟩
        obtain ⟨its', g4, rfl⟩ := Option.map_eq_some_iff.1 g1
        obtain ⟨m, ns', e, g2', rfl⟩ := List.forall₂_cons_left_iff.1 g2
        exact ⟨m, (parseU32_iff v m).2 e, (ih m n).2 ⟨its', ns', g4, g2', by rw [g3, List.getLastD_cons]⟩⟩

/-- The loop over the options and the words that are left. -/
theorem options_iff (l : List Bytes) (n : Nat) (words : List Bytes) : (readOptions 10 (getopt false l).1 = some n ∧ (getopt false l).2 = words) ↔
    ∃ its ns, Parsed l its words ∧ List.Forall₂ ReadAs its ns ∧ n = ns.getLastD 10 := by
  rw [readOptions_iff]
  constructor
  · rintro ⟨⟨its, ns, h1, h2, h3⟩, h4⟩
    exact ⟨its, ns, (getopt_iff l false its words).1 ⟨h1, h4⟩, h2, h3⟩
  · rintro ⟨its, ns, h1, h2, h3⟩
    obtain ⟨h4, h5⟩ := (getopt_iff l false its words).2 h1
    exact ⟨⟨its, ns, h4, h2, h3⟩, h5⟩

theorem parseArgs_iff (l : List Bytes) (p n : Nat) : parseArgs l = some (p, n) ↔ ∃ its ns s, Parsed l its [s] ∧ List.Forall₂ ReadAs its ns ∧ n = ns.getLastD 10 ∧ ReadAs s p ∧ 1 ≤ p ∧ p ≤ 23 := by
  unfold parseArgs
  by_cases hl : l.length + 1 ≤ 1
  · rw [if_pos hl]
    have : l = [] := List.length_eq_zero_iff.1 (by omega)
    subst this
    simp only [reduceCtorEq, false_iff]
    rintro ⟨its, ns, s, h, _⟩
    cases h
  · rw [if_neg hl]
    dsimp only
    constructor
    · intro h
      split at h
      · cases h
      · rename_i m hm
        split at h
        · rename_i s hs
          split at h
          · cases h
          · rename_i q hq
            split_ifs at h with hr
            obtain ⟨its, ns, g1, g2, g3⟩ := (options_iff l m [s]).1 ⟨hm, hs⟩
            cases h
            exact ⟨its, ns, s, g1, g2, g3, (parseU32_iff s p).1 hq, by omega, by omega⟩
        · cases h
    · rintro ⟨its, ns, s, g1, g2, g3, g4, g5, g6⟩
      obtain ⟨h1, h2⟩ := (options_iff l n [s]).2 ⟨its, ns, g1, g2, g3⟩
      rw [h1, h2]
      simp only [(parseU32_iff s p).2 g4]
      rw [if_neg (by omega)]

/-- The six numbers of bench_free. -/
def sixNumbers (iter : Nat) (words : List Bytes) : M (Option FreeOptions) := do
  let some kappa ← nextNumber words 0 | .ok none
  let some n ← nextNumber words 1 | .ok none
  let some tau ← nextNumber words 2 | .ok none
  let some m1 ← nextNumber words 3 | .ok none
  let some m2 ← nextNumber words 4 | .ok none
  let some lambda ← nextNumber words 5 | .ok none
  .ok (some ⟨iter, kappa, m1, m2, tau, n, lambda⟩)

theorem bind_next {α : Type} (words : List Bytes) (k : Nat) (f : Nat → M (Option α)) :
    (do let some v ← nextNumber words k | .ok none
        f v : M (Option α)) = match words[k]? with
      | none => .error .ub
      | some s => match parseU32 s with
        | none => .ok none
        | some v => f v := by
  unfold nextNumber
  cases words[k]? with
  | none => rfl
  | some s =>
    cases h : parseU32 s with
    | none => simp only [h]; rfl
    | some v => simp only [h]; rfl

theorem sixNumbers_ok (iter : Nat) (words : List Bytes) (o : FreeOptions) :
    sixNumbers iter words = .ok (some o) ↔ o.iter = iter ∧ ∃ a b c d e f rest, words = a :: b :: c :: d :: e :: f :: rest ∧ ReadAs a o.kappa ∧ ReadAs b o.n ∧ ReadAs c o.tau ∧ ReadAs d o.m1 ∧ ReadAs e o.m2 ∧ ReadAs f o.lambda := by
  unfold sixNumbers
  simp only [bind_next, ← parseU32_iff]
  rcases words with _ | ⟨a, _ | ⟨b, _ | ⟨c, _ | ⟨d, _ | ⟨e, _ | ⟨f, rest⟩⟩⟩⟩⟩⟩ <;> simp only [List.getElem?_cons_zero, List.getElem?_cons_succ, List.getElem?_nil]
  case cons.cons.cons.cons.cons.cons =>
    constructor
    · intro h
      repeat' split at h
      all_goals cases h
      refine ⟨rfl, a, b, c, d, e, f, rest, rfl, ?_⟩
      simp only [*, and_self]
    · rintro ⟨rfl, _, _, _, _, _, _, _, h, h1, h2, h3, h4, h5, h6⟩
      cases h
      simp only [h1, h2, h3, h4, h5, h6]
  all_goals
    refine ⟨fun h => ?_, fun ⟨_, _, _, _, _, _, _, _, h, _⟩ => by cases h⟩
    repeat' split at h
    all_goals cases h

theorem sixNumbers_ub (iter : Nat) (words : List Bytes) : sixNumbers iter words = .error .ub ↔ words.length < 6 ∧ ∀ s ∈ words, ∃ v, ReadAs s v := by
  unfold sixNumbers
  simp only [bind_next, ← parseU32_iff]
  rcases words with _ | ⟨a, _ | ⟨b, _ | ⟨c, _ | ⟨d, _ | ⟨e, _ | ⟨f, rest⟩⟩⟩⟩⟩⟩ <;> simp only [List.getElem?_cons_zero, List.getElem?_cons_succ, List.getElem?_nil]
  case cons.cons.cons.cons.cons.cons =>
    refine ⟨fun h => ?_, fun h => absurd h.1 (by simp)⟩
    repeat' split at h
    all_goals cases h
  case nil => simp
  all_goals
    constructor
    · intro h
      refine ⟨by simp, fun s hs => ?_⟩
      simp only [List.mem_cons, List.not_mem_nil, or_false] at hs
      repeat' split at h
      all_goals first | cases h; done | skip
      rcases hs with rfl | hs <;> first | exact ⟨_, by assumption⟩ | skip
      all_goals rcases hs with rfl | hs <;> first | exact ⟨_, by assumption⟩ | skip
      all_goals rcases hs with rfl | hs <;> first | exact ⟨_, by assumption⟩ | skip
      all_goals rcases hs with rfl | rfl <;> exact ⟨_, by assumption⟩
    · rintro ⟨-, h⟩
      repeat' split
      all_goals first | rfl | skip
      all_goals
        rename_i hn
        obtain ⟨v, hv⟩ := h _ List.mem_cons_self
        simp_all

end Banquet.Bench
