import Verif.Model.LoopsField
import Verif.Proofs.LoopsAes

/-! The loops of field.cpp (Model/LoopsField.lean) compute the functions of Model/Field.lean. -/

namespace Banquet.Loops

variable {α σ : Type}

/-- A loop with an invariant. -/
theorem forTo_keep (n : Nat) (body : Nat → σ → M σ) (g : σ → Nat → σ) (P : σ → Prop) (s : σ) (h0 : P s) (h : ∀ i < n, ∀ s, P s → body i s = .ok (g s i) ∧ P (g s i)) :
    forTo n body s = .ok ((List.range n).foldl g s) ∧ P ((List.range n).foldl g s) := by
  induction n with
  | zero => exact ⟨rfl, h0⟩
  | succ n ih =>
    obtain ⟨ih1, ih2⟩ := ih fun i hi => h i (by omega)
    rw [forTo_succ, ih1, ok_bind, List.range_succ, List.foldl_append]
    exact h n (by omega) _ ih2

/-! ## The lifting table -/

theorem double_loop (g : W64 → W64) (L R : List W64) (h : L.length ≤ R.length) :
    forTo L.length (fun idx lut => do
      let x ← rd lut idx
      wr lut (L.length + idx) (g x)) (L ++ R) = .ok (L ++ L.map g ++ R.drop L.length) := by
  rw [forTo_state L.length _ (L ++ R) (fun i => L ++ ((L.take i).map g ++ R.drop i)) (by simp) ?_]
  · simp
  · intro i hi
    have h1 : rd (L ++ ((L.take i).map g ++ R.drop i)) i = .ok L[i] := rd_ok (by rw [List.getElem?_append_left hi, List.getElem?_eq_getElem hi])
    rw [h1, ok_bind, wr_ok _ (by simp; omega)]
    congr 1
    have h2 : (L.map g |>.take i).length = i := by simp; omega
    rw [List.set_append_right _ _ (by omega), Nat.add_sub_cancel_left, List.map_take, List.set_append_right _ _ (by omega), h2, Nat.sub_self, List.map_take, List.drop_eq_getElem_cons (by omega),
      List.set_cons_zero, List.take_add_one, List.getElem?_map, List.getElem?_eq_getElem hi]
    simp

theorem liftStep_length (r : Reducer) (gen : W64) (n : Nat) : ((List.range n).foldl (fun st _ => liftStep r gen st) (([0, 1] : List W64), gen)).1.length = 1 <<< (n + 1) := by
  induction n with
  | zero => rfl
  | succ n ih =>
    rw [List.range_succ, List.foldl_append]
    generalize (List.range n).foldl (fun st _ => liftStep r gen st) (([0, 1] : List W64), gen) = st at ih
    simp only [List.foldl_cons, List.foldl_nil, liftStep, List.length_append, List.length_map, ih, Nat.shiftLeft_eq, Nat.pow_succ]
    omega

theorem initLut_eq (r : Reducer) (gen : W64) (lut : List W64) (h : lut.length = 256) : initLut r gen lut = .ok (initLiftingLut r gen) := by
  unfold initLut
  rw [wr_ok _ (by omega), ok_bind, wr_ok _ (by simp; omega), ok_bind]
  have hstart : (lut.set 0 0).set 1 1 = [0, 1] ++ lut.drop 2 := by
    match lut, h with
    | a :: b :: l, _ => simp
  let S : Nat → List W64 × W64 := fun n => (List.range n).foldl (fun st _ => liftStep r gen st) ([0, 1], gen)
  rw [hstart, forTo_state 7 _ _ (fun b => ((S b).1 ++ lut.drop (1 <<< (b + 1)), (S b).2)) (by rfl) ?_, ok_bind]
  · simp only
    rw [List.drop_eq_nil_of_le (by rw [h]; decide), List.append_nil]
    rfl
  · intro b hb
    have hl : (S b).1.length = 1 <<< (b + 1) := liftStep_length r gen b
    have hle : 1 <<< (b + 1) + 1 <<< (b + 1) ≤ 256 := by interval_cases b <;> decide
    have hd := double_loop (fun x => gfAdd x (S b).2) (S b).1 (lut.drop (1 <<< (b + 1))) (by rw [hl, List.length_drop, h]; omega)
    rw [hl] at hd
    simp only
    rw [hd, ok_bind]
    have hS : S (b + 1) = liftStep r gen (S b) := by
      simp only [S, List.range_succ, List.foldl_append, List.foldl_cons, List.foldl_nil]
    rw [hS, liftStep, List.drop_drop]
    have : 1 <<< (b + 1) + 1 <<< (b + 1) = 1 <<< (b + 1 + 1) := by simp only [Nat.shiftLeft_eq, Nat.pow_succ]; omega
    rw [this]

theorem initField_eq (F : FieldState) (lambda : Nat) (h : F.lut.length = 256) : initField F lambda = initExtensionField lambda := by
  unfold initField initExtensionField
  split
  all_goals simp only [ok_bind, initLut_eq _ _ _ h]
  rfl

theorem lift_eq (F : FieldState) (b : Byte) (h : F.lut.length = 256) : lift F b = .ok (F.lift b) := rd_getD 0 (by have := b.isLt; omega)

/-! ## Vectors -/

theorem each_loop (a : List α) (g : Nat → α → M α) (f : Nat → α → α) (h : ∀ i (hi : i < a.length), g i a[i] = .ok (f i a[i])) :
    forTo a.length (fun i res => do
      let x ← rd res i
      let y ← g i x
      wr res i y) a = .ok (a.mapIdx f) := by
  rw [forTo_state a.length _ a (fun i => a.mapIdx fun k x => if k < i then f k x else x) (List.ext_getElem (by simp) fun i h1 h2 => by simp) ?_]
  · congr 1
    refine List.ext_getElem (by simp) fun i h1 h2 => ?_
    simp only [List.getElem_mapIdx]
    rw [if_pos (by simpa using h1)]
  · intro i hi
    rw [rd_ok (x := a[i]) (by simp [hi]), ok_bind, h i hi, ok_bind, wr_ok _ (by simpa using hi)]
    congr 1
    refine List.ext_getElem (by simp) fun k h1 h2 => ?_
    simp only [List.getElem_set, List.getElem_mapIdx]
    split_ifs <;> first | rfl | omega | (subst k; rfl)

theorem vecAdd_eq (a b : List W64) : vecAdd a b = Banquet.vecAdd a b := by
  unfold vecAdd Banquet.vecAdd
  by_cases h : a.length = b.length
  · rw [if_neg (by simpa using h), show (a.length == b.length) = true by simpa using h, require_true, ok_bind]
    have := each_loop a (fun i x => do let y ← rd b i; .ok (gfAdd x y)) (fun i x => gfAdd x (b.getD i 0)) fun i hi => by rw [rd_getD 0 (by omega), ok_bind]
    simp only [bind_assoc, ok_bind] at this
    rw [this]
    congr 1
    refine List.ext_getElem (by simp [h]) fun i h1 h2 => ?_
    have h3 : i < b.length := by simp at h1; omega
    simp [h3]
  · rw [if_pos h, show (a.length == b.length) = false by simpa using h, require_false]
    rfl

theorem vecScale_eq (F : FieldState) (a : List W64) (s : W64) : vecScale F a s = .ok (F.vecScale a s) := by
  unfold vecScale
  have := each_loop a (fun _ x => .ok (F.mul x s)) (fun _ x => F.mul x s) fun i hi => rfl
  simp only [ok_bind] at this
  rw [this]
  congr 1
  unfold FieldState.vecScale
  refine List.ext_getElem (by simp) fun i h1 h2 => ?_
  simp

theorem foldl_zip (op : W64 → W64 → W128) (a b : List W64) (h : a.length = b.length) (s : W128) :
    (List.range a.length).foldl (fun acc i => acc ^^^ op (a.getD i 0) (b.getD i 0)) s = (List.zipWith op a b).foldl (· ^^^ ·) s := by
  induction a generalizing b s with
  | nil => rfl
  | cons x a ih =>
    cases b with
    | nil => simp at h
    | cons y b =>
      rw [List.length_cons, List.range_succ_eq_map, List.foldl_cons, List.foldl_map]
      simp only [List.zipWith_cons_cons, List.foldl_cons]
      have := ih b (by simpa using h) (s ^^^ op x y)
      simpa using this

theorem dot_eq (F : FieldState) (a b : List W64) : dot F a b = F.dot a b := by
  unfold dot FieldState.dot
  by_cases h : a.length = b.length
  · rw [if_neg (by simpa using h), show (a.length == b.length) = true by simpa using h, require_true, ok_bind,
      forTo_foldl a.length _ (fun acc i => acc ^^^ clmul (a.getD i 0) (b.getD i 0)) 0 (fun i hi s => by rw [rd_getD 0 hi, ok_bind, rd_getD 0 (by omega), ok_bind]), ok_bind, foldl_zip _ _ _ h]
  · rw [if_pos h, show (a.length == b.length) = false by simpa using h, require_false]
    rfl

theorem polyMul_eq (F : FieldState) (a b : List W64) : polyMul F a b = F.polyMul a b := by
  unfold polyMul FieldState.polyMul
  by_cases h : a.length + b.length = 0
  · rw [if_pos h, show (a.length + b.length != 0) = false by simp [h], require_false]
    rfl
  · rw [if_neg h, show (a.length + b.length != 0) = true by simpa using h, require_true, ok_bind]
    refine (forTo_keep a.length _ _ (fun res : List W64 => res.length = a.length + b.length - 1) _ (by simp) fun i hi s hs => ?_).1
    refine forTo_keep b.length _ _ (fun res : List W64 => res.length = a.length + b.length - 1) _ hs fun j hj s hs => ⟨?_, by simpa using hs⟩
    rw [rd_getD 0 hi, ok_bind, rd_getD 0 hj, ok_bind, rd_getD 0 (by omega), ok_bind, wr_ok _ (by omega)]

theorem buildFromRoots_eq (F : FieldState) (roots : List W64) : buildFromRoots F roots = .ok (F.buildFromRoots roots) := by
  unfold buildFromRoots FieldState.buildFromRoots
  obtain ⟨h1, h2⟩ := forTo_keep (n := roots.length - 1) (g := fun poly k => F.rootsStep poly (k + 1)) (P := fun poly => poly.length = roots.length + 1) (s := roots ++ [0]) (h0 := by simp)
    (body := fun k' poly => do
      let k := k' + 1
      let tmp ← rd poly k
      let x ← rd poly (k - 1)
      let poly ← wr poly k (gfAdd tmp x)
      let poly ← forTo (k - 1) (fun d poly => do
        let i := k - 1 - d
        let x ← rd poly i
        let y ← rd poly (i - 1)
        wr poly i (gfAdd (F.mul x tmp) y)) poly
      let x ← rd poly 0
      wr poly 0 (F.mul x tmp)) (h := fun k hk poly hp => by
      simp only
      rw [rd_getD 0 (by omega), ok_bind, rd_getD 0 (by omega), ok_bind, wr_ok _ (by omega), ok_bind]
      obtain ⟨h3, h4⟩ := forTo_keep (k + 1 - 1) (fun d q => do
          let x ← rd q (k + 1 - 1 - d)
          let y ← rd q (k + 1 - 1 - d - 1)
          wr q (k + 1 - 1 - d) (gfAdd (F.mul x (poly.getD (k + 1) 0)) y))
        (fun q d => q.set (k + 1 - 1 - d) (gfAdd (F.mul (q.getD (k + 1 - 1 - d) 0) (poly.getD (k + 1) 0)) (q.getD (k + 1 - 1 - d - 1) 0))) (fun q => q.length = roots.length + 1)
        (poly.set (k + 1) (gfAdd (poly.getD (k + 1) 0) (poly.getD (k + 1 - 1) 0))) (by simpa using hp) fun d hd q hq =>
          ⟨by rw [rd_getD 0 (by omega), ok_bind, rd_getD 0 (by omega), ok_bind, wr_ok _ (by omega)], by simpa using hq⟩
      rw [h3, ok_bind, rd_getD 0 (by omega), ok_bind, wr_ok _ (by omega)]
      exact ⟨rfl, by unfold FieldState.rootsStep; simpa using h4⟩)
  simp only at h1 ⊢
  rw [h1, ok_bind, wr_ok _ (by omega)]

theorem eval_eq (F : FieldState) (poly : List W64) (x : W64) : eval F poly x = .ok (F.eval poly x) := by
  unfold eval
  rw [forTo_foldl poly.length _ (fun acc d => gfAdd (F.mul acc x) (poly.getD (poly.length - 1 - d) 0)) 0 (fun d hd s => by rw [rd_getD 0 (by omega), ok_bind])]
  congr 1
  unfold FieldState.eval
  have : ∀ n, n ≤ poly.length → (List.range n).foldl (fun acc d => gfAdd (F.mul acc x) (poly.getD (poly.length - 1 - d) 0)) 0 = (poly.drop (poly.length - n)).foldr (fun c acc => gfAdd (F.mul acc x) c) 0 := by
    intro n
    induction n with
    | zero => intro _; simp
    | succ n ih =>
      intro hn
      have e : poly.length - (n + 1) = poly.length - 1 - n := by omega
      rw [List.range_succ, List.foldl_append, ih (by omega), e, List.drop_eq_getElem_cons (i := poly.length - 1 - n) (by omega), List.foldr_cons, show poly.length - 1 - n + 1 = poly.length - n by omega]
      simp [List.getD_eq_getElem?_getD, show poly.length - 1 - n < poly.length by omega]
  simpa using this poly.length le_rfl

theorem firstN_eq (F : FieldState) (n : Nat) : firstN F n = .ok (F.firstN n) := by
  unfold firstN FieldState.firstN
  rw [forTo_foldl n _ (fun (st : List W64 × W64) _ => (st.1 ++ [st.2], F.mul st.2 2)) _ (fun _ _ _ => rfl), ok_bind]

theorem others_loop (F : FieldState) (xs : List W64) (k : Nat) (hk : k < xs.length) :
    forTo xs.length (fun j (st : W64 × List W64) => do
      if k != j then do
        let a ← rd xs k
        let b ← rd xs j
        .ok (F.mul st.1 (gfAdd a b), st.2 ++ [b])
      else .ok st) (1, []) =
    .ok (((List.range xs.length).filter (fun j => k ≠ j)).foldl (fun d j => F.mul d (gfAdd (xs.getD k 0) (xs.getD j 0))) 1, ((List.range xs.length).filter (fun j => k ≠ j)).map (fun j => xs.getD j 0)) := by
  refine forTo_state xs.length _ _ (fun n => (((List.range n).filter (fun j => k ≠ j)).foldl (fun d j => F.mul d (gfAdd (xs.getD k 0) (xs.getD j 0))) 1,
    ((List.range n).filter (fun j => k ≠ j)).map (fun j => xs.getD j 0))) rfl fun i hi => ?_
  rw [List.range_succ, List.filter_append, List.foldl_append, List.map_append]
  by_cases h : k = i
  · subst h
    simp
  · rw [if_pos (by simpa using h), rd_getD 0 hk, ok_bind, rd_getD 0 hi, ok_bind]
    simp [h]

theorem precomputeLagrange_eq (F : FieldState) (xs : List W64) : precomputeLagrange F xs = .ok (F.precomputeLagrange xs) := by
  unfold precomputeLagrange FieldState.precomputeLagrange
  refine forTo_push xs.length _ _ fun k hk => ?_
  rw [others_loop F xs k hk, ok_bind]
  simp only
  rw [buildFromRoots_eq, ok_bind, vecScale_eq, ok_bind]
  rfl

theorem interpolate_eq (F : FieldState) (pre : List (List W64)) (ys : List W64) : interpolate F pre ys = F.interpolate pre ys := by
  unfold interpolate FieldState.interpolate
  by_cases h : pre.length ≠ ys.length ∨ ys = []
  · rw [if_pos h, show (pre.length == ys.length && ys != []) = false by
      rcases h with h | h
      · simp [h]
      · simp [h], require_false]
    rfl
  · rw [if_neg h]
    simp only [ne_eq, not_or, not_not] at h
    have h0 : 0 < ys.length := List.length_pos_iff.2 h.2
    rw [show (pre.length == ys.length && ys != []) = true by simp [h.1, h.2], require_true, ok_bind, rd_getD [] (by omega), ok_bind]
    rw [forTo_congr ys.length _ (fun k res => Banquet.vecAdd res (F.vecScale (pre.getD k []) (ys.getD k 0))) _ fun k hk res => by
      rw [rd_getD [] (by omega), ok_bind, rd_getD 0 hk, ok_bind, vecScale_eq, ok_bind, vecAdd_eq]]
    rfl

end Banquet.Loops
