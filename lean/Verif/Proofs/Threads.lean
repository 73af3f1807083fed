import Verif.Model.Threads
import Verif.Proofs.LoopsField

/-! The globals under interleaved initialisations (Model/Threads.lean). -/

namespace Banquet.Threads

/-- What a thread may rely on after a part of its initialisation: written entries and variables, and `pow`. -/
structure Known where
  written : List Nat
  red : Bool
  mod : Bool
  size : Bool
  pow : Option W64

/-- What is known after one more statement; `none` if the statement would write a value other than that of `R` or read an entry that is not known. -/
def Known.after (R : FieldState) (g : Known) : Write → Option Known
  | .modulus m => if m = R.modulus then some { g with mod := true } else none
  | .reduce r => if r = R.reducer then some { g with red := true } else none
  | .size n => if n = R.byteSize then some { g with size := true } else none
  | .const i v => if v = R.lut.getD i 0 then some { g with written := i :: g.written } else none
  | .first gen => some { g with pow := some gen }
  | .copy dst src =>
    match g.pow with
    | none => none
    | some p => if g.written.contains src && (gfAdd (R.lut.getD src 0) p == R.lut.getD dst 0) then some { g with written := dst :: g.written } else none
  | .next gen =>
    match g.pow with
    | none => none
    | some p => if g.red then some { g with pow := some (R.mul p gen) } else none

/-- The rest of an initialisation writes only values of `R`, and in the end all of them. -/
def Known.check (R : FieldState) : Known → List Write → Bool
  | g, [] => g.red && g.mod && g.size && (List.range 256).all fun i => g.written.contains i
  | g, w :: ws =>
    match g.after R w with
    | none => false
    | some g' => g'.check R ws

def Known.none : Known := ⟨[], false, false, false, Option.none⟩

/-- What is known is true. -/
structure Sat (R G : FieldState) (g : Known) : Prop where
  lut : ∀ i ∈ g.written, G.lut.getD i 0 = R.lut.getD i 0
  red : g.red = true → G.reducer = R.reducer
  mod : g.mod = true → G.modulus = R.modulus
  size : g.size = true → G.byteSize = R.byteSize

theorem getD_set_eq (l : List W64) (i j : Nat) (v r : W64) (h : l.getD j 0 = r) (hv : i = j → v = r) : (l.set i v).getD j 0 = r := by
  rw [List.getD_eq_getElem?_getD, List.getElem?_set]
  split_ifs with h1 h2
  · exact hv h1
  · subst h1
    rw [← h, List.getD_eq_getElem?_getD, List.getElem?_eq_none (by omega)]
  · rw [← h, List.getD_eq_getElem?_getD]

/-- A statement that is allowed writes a value of `R`: what others know stays true. -/
theorem sat_other {R G : FieldState} {g g' h : Known} {w : Write} {pow : W64} (hg : Sat R G g) (hp : ∀ p, g.pow = some p → pow = p) (ha : g.after R w = some g') (hh : Sat R G h) :
    Sat R (w.run G pow).1 h := by
  obtain ⟨h1, h2, h3, h4⟩ := hh
  cases w with
  | modulus m =>
    simp only [Known.after] at ha
    split_ifs at ha with e
    exact ⟨h1, h2, fun _ => e, h4⟩
  | reduce r =>
    simp only [Known.after] at ha
    split_ifs at ha with e
    exact ⟨h1, fun _ => e, h3, h4⟩
  | size n =>
    simp only [Known.after] at ha
    split_ifs at ha with e
    exact ⟨h1, h2, h3, fun _ => e⟩
  | const i v =>
    simp only [Known.after] at ha
    split_ifs at ha with e
    exact ⟨fun j hj => getD_set_eq _ _ _ _ _ (h1 j hj) fun hij => hij ▸ e, h2, h3, h4⟩
  | first gen => exact ⟨h1, h2, h3, h4⟩
  | next gen => exact ⟨h1, h2, h3, h4⟩
  | copy dst src =>
    simp only [Known.after] at ha
    cases hpow : g.pow with
    | none => rw [hpow] at ha; cases ha
    | some p =>
      rw [hpow] at ha
      simp only at ha
      split_ifs at ha with e
      rw [Bool.and_eq_true, beq_iff_eq, List.contains_iff_mem] at e
      refine ⟨fun j hj => getD_set_eq _ _ _ _ _ (h1 j hj) fun hij => ?_, h2, h3, h4⟩
      rw [hg.lut src e.1, hp p hpow, e.2, hij]

/-- What the thread itself knows afterwards. -/
theorem sat_own {R G : FieldState} {g g' : Known} {w : Write} {pow : W64} (hl : G.lut.length = 256) (hR : R.lut.length = 256) (hg : Sat R G g) (hp : ∀ p, g.pow = some p → pow = p) (ha : g.after R w = some g') :
    Sat R (w.run G pow).1 g' ∧ ∀ p, g'.pow = some p → (w.run G pow).2 = p := by
  obtain ⟨h1, h2, h3, h4⟩ := sat_other hg hp ha hg
  have new : ∀ (i : Nat) (v : W64), v = R.lut.getD i 0 → (G.lut.set i v).getD i 0 = R.lut.getD i 0 := by
    intro i v hv
    by_cases hi : i < 256
    · rw [List.getD_eq_getElem?_getD, List.getElem?_set, if_pos rfl, if_pos (by omega)]
      exact hv
    · rw [List.getD_eq_getElem?_getD, List.getD_eq_getElem?_getD, List.getElem?_eq_none (by simp; omega), List.getElem?_eq_none (by omega)]
  cases w with
  | modulus m =>
    simp only [Known.after] at ha
    split_ifs at ha with e
    cases ha
    exact ⟨⟨h1, h2, fun _ => e, h4⟩, hp⟩
  | reduce r =>
    simp only [Known.after] at ha
    split_ifs at ha with e
    cases ha
    exact ⟨⟨h1, fun _ => e, h3, h4⟩, hp⟩
  | size n =>
    simp only [Known.after] at ha
    split_ifs at ha with e
    cases ha
    exact ⟨⟨h1, h2, h3, fun _ => e⟩, hp⟩
  | const i v =>
    simp only [Known.after] at ha
    split_ifs at ha with e
    cases ha
    refine ⟨⟨fun j hj => ?_, h2, h3, h4⟩, hp⟩
    rcases List.mem_cons.1 hj with rfl | hj
    · exact new _ _ e
    · exact h1 j hj
  | first gen =>
    cases ha
    exact ⟨⟨h1, h2, h3, h4⟩, fun p hp => Option.some.inj hp⟩
  | next gen =>
    simp only [Known.after] at ha
    cases hpow : g.pow with
    | none => rw [hpow] at ha; cases ha
    | some p =>
      rw [hpow] at ha
      simp only at ha
      split_ifs at ha with e
      cases ha
      refine ⟨⟨h1, h2, h3, h4⟩, fun q hq => ?_⟩
      cases hq
      change G.mul pow gen = R.mul p gen
      rw [hp p hpow]
      unfold FieldState.mul
      rw [hg.red e]
  | copy dst src =>
    simp only [Known.after] at ha
    cases hpow : g.pow with
    | none => rw [hpow] at ha; cases ha
    | some p =>
      rw [hpow] at ha
      simp only at ha
      split_ifs at ha with e
      cases ha
      rw [Bool.and_eq_true, beq_iff_eq, List.contains_iff_mem] at e
      refine ⟨⟨fun j hj => ?_, h2, h3, h4⟩, fun q hq => by cases hq; exact hp p hpow⟩
      rcases List.mem_cons.1 hj with rfl | hj
      · refine new _ _ ?_
        rw [hg.lut src e.1, hp p hpow, e.2]
      · exact h1 j hj

theorem run_length (w : Write) (G : FieldState) (pow : W64) : (w.run G pow).1.lut.length = G.lut.length := by
  cases w <;> simp [Write.run]

theorem sat_full {R G : FieldState} {g : Known} (hl : G.lut.length = 256) (hR : R.lut.length = 256) (hg : Sat R G g) (hc : g.check R [] = true) : G = R := by
  simp only [Known.check, Bool.and_eq_true, List.all_eq_true, List.mem_range, List.contains_iff_mem] at hc
  obtain ⟨⟨⟨c1, c2⟩, c3⟩, c4⟩ := hc
  have e : G.lut = R.lut := by
    refine List.ext_getElem (by omega) fun i h1 h2 => ?_
    have := hg.lut i (c4 i (by omega))
    simpa [List.getD_eq_getElem?_getD, h1, h2] using this
  cases G
  cases R
  simp only [FieldState.mk.injEq]
  exact ⟨hg.red c1, hg.size c3, hg.mod c2, e⟩

/-! ## All threads with the same field -/

/-- A thread is at some point of its initialisation and knows what it has written; with one initialisation finished, the globals are those of the field. -/
def Fine (R G : FieldState) (th : Thread) : Prop := (∃ g : Known, Sat R G g ∧ (∀ p, g.pow = some p → th.pow = p) ∧ g.check R th.left = true) ∧ (1 ≤ th.finished → G = R)

def AllFine (R : FieldState) (lam : Nat) (s : System) : Prop := s.globals.lut.length = 256 ∧ ∀ th ∈ s.threads, th.lambda = lam ∧ Fine R s.globals th

theorem fine_other {R G : FieldState} {g g' : Known} {w : Write} {pow : W64} (hl : G.lut.length = 256) (hR : R.lut.length = 256) (hg : Sat R G g) (hp : ∀ p, g.pow = some p → pow = p) (ha : g.after R w = some g')
    {th : Thread} (h : Fine R G th) : Fine R (w.run G pow).1 th := by
  obtain ⟨⟨k, h1, h2, h3⟩, h4⟩ := h
  refine ⟨⟨k, sat_other hg hp ha h1, h2, h3⟩, fun hf => ?_⟩
  have e := h4 hf
  subst e
  have full : Sat G G ⟨List.range 256, true, true, true, none⟩ := ⟨fun _ _ => rfl, fun _ => rfl, fun _ => rfl, fun _ => rfl⟩
  refine sat_full (by rw [run_length]; exact hl) hl (sat_other hg hp ha full) ?_
  simp [Known.check]

theorem mem_set_cases {l : List Thread} {t : Nat} {a th : Thread} (h : th ∈ l.set t a) : th = a ∨ th ∈ l := by
  rcases List.mem_or_eq_of_mem_set h with h | h
  · exact .inr h
  · exact .inl h

theorem step_fine {R : FieldState} {lam : Nat} (hR : R.lut.length = 256) (hw : Known.none.check R (initWrites lam) = true) (s : System) (h : AllFine R lam s) (t : Nat) : AllFine R lam (s.step t) := by
  obtain ⟨hl, hs⟩ := h
  unfold System.step
  split
  · exact ⟨hl, hs⟩
  · rename_i l pow n ht
    obtain ⟨rfl, -, hf⟩ := hs _ (List.mem_of_getElem? ht)
    refine ⟨hl, fun th hth => ?_⟩
    rcases mem_set_cases hth with rfl | hth
    · exact ⟨rfl, ⟨Known.none, ⟨(fun _ h => by cases h), (by simp [Known.none]), (by simp [Known.none]), (by simp [Known.none])⟩, (by simp [Known.none]), hw⟩, hf⟩
    · exact hs th hth
  · rename_i l w pow n ht
    obtain ⟨rfl, ⟨g, h1, h2, h3⟩, hf⟩ := hs _ (List.mem_of_getElem? ht)
    simp only [Known.check] at h3
    cases ha : g.after R w with
    | none => rw [ha] at h3; cases h3
    | some g' =>
      rw [ha] at h3
      obtain ⟨o1, o2⟩ := sat_own hl hR h1 h2 ha
      refine ⟨by rw [run_length]; exact hl, fun th hth => ?_⟩
      rcases mem_set_cases hth with rfl | hth
      · exact ⟨rfl, ⟨g', o1, o2, h3⟩, fun _ => sat_full (by rw [run_length]; exact hl) hR o1 h3⟩
      · exact ⟨(hs th hth).1, fine_other hl hR h1 h2 ha (hs th hth).2⟩
  · rename_i l w w' ws pow n ht
    obtain ⟨rfl, ⟨g, h1, h2, h3⟩, hf⟩ := hs _ (List.mem_of_getElem? ht)
    rw [Known.check] at h3
    cases ha : g.after R w with
    | none => rw [ha] at h3; cases h3
    | some g' =>
      rw [ha] at h3
      obtain ⟨o1, o2⟩ := sat_own hl hR h1 h2 ha
      refine ⟨by rw [run_length]; exact hl, fun th hth => ?_⟩
      rcases mem_set_cases hth with rfl | hth
      · exact ⟨rfl, ⟨g', o1, o2, h3⟩, (fine_other hl hR h1 h2 ha ⟨⟨g, h1, h2, by rw [Known.check, ha]; exact h3⟩, hf⟩ : Fine R _ ⟨_, w :: w' :: ws, pow, n⟩).2⟩
      · exact ⟨(hs th hth).1, fine_other hl hR h1 h2 ha (hs th hth).2⟩

theorem run_fine {R : FieldState} {lam : Nat} (hR : R.lut.length = 256) (hw : Known.none.check R (initWrites lam) = true) (s : System) (h : AllFine R lam s) (schedule : List Nat) : AllFine R lam (s.run schedule) := by
  induction schedule generalizing s with
  | nil => exact h
  | cons t ts ih => exact ih _ (step_fine hR hw s h t)

theorem check2 : ∀ R, initExtensionField 2 = .ok R → Known.none.check R (initWrites 2) = true := by
  intro R h
  cases h
  decide +kernel

theorem check4 : ∀ R, initExtensionField 4 = .ok R → Known.none.check R (initWrites 4) = true := by
  intro R h
  cases h
  decide +kernel

theorem check5 : ∀ R, initExtensionField 5 = .ok R → Known.none.check R (initWrites 5) = true := by
  intro R h
  cases h
  decide +kernel

theorem check6 : ∀ R, initExtensionField 6 = .ok R → Known.none.check R (initWrites 6) = true := by
  intro R h
  cases h
  decide +kernel

end Banquet.Threads
