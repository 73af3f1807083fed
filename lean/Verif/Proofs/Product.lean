import Verif.Proofs.Shares
import Verif.Proofs.Prover

/-! The polynomials behind the shares of one repetition. -/

namespace Banquet

open Polynomial Spec FieldOk

theorem getD_append_lt {α : Type} (a b : List α) (d : α) {k : Nat} (h : k < a.length) : (a ++ b).getD k d = a.getD k d := by
  rw [List.getD_eq_getElem?_getD, List.getD_eq_getElem?_getD, List.getElem?_append_left h]

theorem getD_append_ge {α : Type} (a b : List α) (d : α) {k : Nat} (h : a.length ≤ k) : (a ++ b).getD k d = b.getD (k - a.length) d := by
  rw [List.getD_eq_getElem?_getD, List.getD_eq_getElem?_getD, List.getElem?_append_right h]

variable {F : FieldState} [hF : FieldOk F]

theorem interpolates_sum {n N : Nat} (y : Nat → Nat → GF F.byteSize) (P : Nat → (GF F.byteSize)[X]) (h : ∀ p < N, Interpolates F.byteSize n (y p) (P p)) :
    Interpolates F.byteSize n (fun k => ∑ p ∈ Finset.range N, y p k) (∑ p ∈ Finset.range N, P p) := by
  constructor
  · exact mem_degreeLT.1 (Submodule.sum_mem _ fun p hp => mem_degreeLT.2 (h p (Finset.mem_range.1 hp)).1)
  · intro k hk
    rw [eval_finsetSum]
    exact Finset.sum_congr rfl fun p hp => (h p (Finset.mem_range.1 hp)).2 k hk

theorem interpolates_congr {n : Nat} {y y' : Nat → GF F.byteSize} {P : (GF F.byteSize)[X]} (h : Interpolates F.byteSize n y P) (hy : ∀ k < n, y k = y' k) : Interpolates F.byteSize n y' P :=
  ⟨h.1, fun k hk => (h.2 k hk).trans (hy k hk)⟩

theorem val_lift_fold {α : Type} (l : List α) (f : α → Byte) (x : Byte) :
    val F.byteSize (F.lift (l.foldl (fun a p => a ^^^ f p) x)) = val F.byteSize (F.lift x) + (l.map fun p => val F.byteSize (F.lift (f p))).sum := by
  induction l generalizing x with
  | nil => simp
  | cons y ys ih =>
    rw [List.foldl_cons, ih, val_lift_xor, List.map_cons, List.sum_cons]
    ring

namespace Ctx
variable (I : Instance) (pt : Bytes) (c : Ctx) (rs : List W64) (R : W64)

/-- S-box input `i`, from all parties. -/
def sAll (i : Nat) : Byte := (List.range I.numParties).foldl (fun a p => a ^^^ (c.out I pt p).1.getD i 0) 0
/-- S-box output `i`, from all parties. -/
def tAll (i : Nat) : Byte := (List.range I.numParties).foldl (fun a p => a ^^^ (c.t I p).getD i 0) 0

/-- Share of the extra point of `S_j`. -/
def sExtra (F : FieldState) (p j : Nat) : W64 := F.fromBytes (tapeBytes (c.tape p) (I.pointPos j) I.lambda)
/-- Share of the extra point of `T_j`. -/
def tExtra (F : FieldState) (p j : Nat) : W64 := F.fromBytes (tapeBytes (c.tape p) (I.pointPos j + I.lambda) I.lambda)
/-- Share of the `k`-th further point of `P`. -/
def pExtra (F : FieldState) (p k : Nat) : W64 := F.fromBytes (tapeBytes (c.tape p) (I.pPos + k * I.lambda) I.lambda)

variable (F) in
/-- `S_j` -/
noncomputable def polyS (j : Nat) : (GF F.byteSize)[X] := ∑ p ∈ Finset.range I.numParties, interpPoly F (I.m2 + 1) ((c.sPts F I pt rs p).getD j [])
variable (F) in
/-- `T_j` -/
noncomputable def polyT (j : Nat) : (GF F.byteSize)[X] := ∑ p ∈ Finset.range I.numParties, interpPoly F (I.m2 + 1) ((c.tPts F I p).getD j [])
variable (F) in
/-- `P` -/
noncomputable def polyP : (GF F.byteSize)[X] := ∑ p ∈ Finset.range I.numParties, interpPoly F (2 * I.m2 + 1) (c.pPts F I rs p)

theorem sPts_facts (p : Nat) {j : Nat} (hj : j < I.m1) : ((c.sPts F I pt rs p).getD j []).length = I.m2 + 1 ∧ AllRed F.byteSize ((c.sPts F I pt rs p).getD j []) ∧
    (∀ k < I.m2, ((c.sPts F I pt rs p).getD j []).getD k 0 = F.mul (rs.getD j 0) (F.lift ((c.out I pt p).1.getD (j + I.m1 * k) 0))) ∧
    ((c.sPts F I pt rs p).getD j []).getD I.m2 0 = c.sExtra I F p j := by
  unfold sPts
  rw [getD_sPrime _ _ _ _ _ _ hj]
  refine ⟨by simp, ?_, ?_, ?_⟩
  · intro x hx
    rcases List.mem_append.1 hx with hx | hx
    · obtain ⟨k, _, rfl⟩ := List.mem_map.1 hx
      exact reduced_apply _
    · rw [List.mem_singleton.1 hx]
      exact reduced_fromBytes _
  · intro k hk
    rw [getD_append_lt _ _ _ (by simpa using hk), getD_range_map _ _ _ _ hk]
  · rw [getD_append_ge _ _ _ (by simp)]
    simp only [List.length_map, List.length_range, Nat.sub_self]
    rfl

theorem tPts_facts (p : Nat) {j : Nat} (hj : j < I.m1) : ((c.tPts F I p).getD j []).length = I.m2 + 1 ∧ AllRed F.byteSize ((c.tPts F I p).getD j []) ∧
    (∀ k < I.m2, ((c.tPts F I p).getD j []).getD k 0 = F.lift ((c.t I p).getD (j + I.m1 * k) 0)) ∧
    ((c.tPts F I p).getD j []).getD I.m2 0 = c.tExtra I F p j := by
  unfold tPts
  rw [getD_tPrime _ _ _ _ _ hj]
  refine ⟨by simp, ?_, ?_, ?_⟩
  · intro x hx
    rcases List.mem_append.1 hx with hx | hx
    · obtain ⟨k, _, rfl⟩ := List.mem_map.1 hx
      exact reduced_lift _
    · rw [List.mem_singleton.1 hx]
      exact reduced_fromBytes _
  · intro k hk
    rw [getD_append_lt _ _ _ (by simpa using hk), getD_range_map _ _ _ _ hk]
  · rw [getD_append_ge _ _ _ (by simp)]
    simp only [List.length_map, List.length_range, Nat.sub_self]
    rfl

theorem pRaw_facts (hrs : AllRed F.byteSize rs) (p : Nat) (tape : Bytes) : AllRed F.byteSize (pRaw F I rs p tape) ∧
    (∀ k < I.m2, val F.byteSize ((pRaw F I rs p tape).getD k 0) = if p = 0 then ∑ j ∈ Finset.range I.m1, val F.byteSize (rs.getD j 0) else 0) ∧
    (∀ k < I.m2 + 1, (pRaw F I rs p tape).getD (I.m2 + k) 0 = F.fromBytes (tapeBytes tape (I.pPos + k * I.lambda) I.lambda)) := by
  have hsum : Reduced F.byteSize ((List.range I.m1).foldl (fun acc j => gfAdd acc (rs.getD j 0)) 0) := reduced_sum _ _ _ reduced_zero fun j _ => hrs.getD j
  unfold pRaw
  dsimp only
  refine ⟨?_, ?_, ?_⟩
  · intro x hx
    rcases List.mem_append.1 hx with hx | hx
    · obtain ⟨k, _, rfl⟩ := List.mem_map.1 hx
      split
      · exact hsum
      · exact reduced_zero
    · obtain ⟨k, _, rfl⟩ := List.mem_map.1 hx
      exact reduced_fromBytes _
  · intro k hk
    rw [getD_append_lt _ _ _ (by simpa using hk), getD_range_map _ _ _ _ hk]
    split
    · rw [val_sum_range, val_zero, zero_add]
    · exact val_zero
  · intro k hk
    rw [getD_append_ge _ _ _ (by simp)]
    simp only [List.length_map, List.length_range]
    rw [show I.m2 + k - I.m2 = k by omega, getD_range_map _ _ _ _ hk]

theorem pPts_facts (hrs : AllRed F.byteSize rs) (hd : AllRed F.byteSize c.pDelta) (p : Nat) : (c.pPts F I rs p).length = 2 * I.m2 + 1 ∧ AllRed F.byteSize (c.pPts F I rs p) ∧
    (∀ k < I.m2, val F.byteSize ((c.pPts F I rs p).getD k 0) = if p = 0 then ∑ j ∈ Finset.range I.m1, val F.byteSize (rs.getD j 0) else 0) ∧
    (∀ k < I.m2 + 1, val F.byteSize ((c.pPts F I rs p).getD (I.m2 + k) 0) = (if p = 0 then val F.byteSize (c.pDelta.getD k 0) else 0) + val F.byteSize (c.pExtra I F p k)) := by
  obtain ⟨r1, r2, r3⟩ := pRaw_facts I rs hrs p (c.tape p)
  unfold pPts
  by_cases hp : p = 0
  · simp only [if_pos hp] at r2 ⊢
    refine ⟨length_addDeltas _ _ _, ?_, ?_, ?_⟩
    · intro x hx
      obtain ⟨k, _, rfl⟩ := List.mem_map.1 hx
      split
      · exact r1.getD k
      · exact reduced_add (r1.getD k) (hd.getD _)
    · intro k hk
      unfold addDeltas
      rw [getD_range_map _ _ _ _ (by omega), if_pos hk]
      exact r2 k hk
    · intro k hk
      unfold addDeltas
      rw [getD_range_map _ _ _ _ (by omega), if_neg (by omega), val_add, r3 k hk, show I.m2 + k - I.m2 = k by omega, add_comm]
      rfl
  · simp only [if_neg hp] at r2 ⊢
    refine ⟨length_pRaw _ _ _ _ _, r1, r2, ?_⟩
    intro k hk
    rw [r3 k hk, zero_add]
    rfl

variable (hI : 2 * I.m2 + 1 ≤ 21845)
include hI

theorem polyS_interp (hrs : AllRed F.byteSize rs) {j : Nat} (hj : j < I.m1) : Interpolates F.byteSize (I.m2 + 1)
    (fun k => if k < I.m2 then val F.byteSize (rs.getD j 0) * val F.byteSize (F.lift (c.sAll I pt (j + I.m1 * k))) else ∑ p ∈ Finset.range I.numParties, val F.byteSize (c.sExtra I F p j))
    (c.polyS F I pt rs j) := by
  refine interpolates_congr (interpolates_sum _ _ fun p _ => interpPoly_ok (by omega) _) fun k hk => ?_
  split
  · rename_i h
    unfold sAll
    rw [val_lift_fold, val_lift_zero, zero_add, list_sum_range, Finset.mul_sum]
    refine Finset.sum_congr rfl fun p _ => ?_
    rw [(sPts_facts I pt c rs p hj).2.2.1 k h, val_mul (hrs.getD j) (reduced_lift _)]
  · have : k = I.m2 := by omega
    subst this
    refine Finset.sum_congr rfl fun p _ => ?_
    rw [(sPts_facts I pt c rs p hj).2.2.2]

theorem polyT_interp {j : Nat} (hj : j < I.m1) : Interpolates F.byteSize (I.m2 + 1)
    (fun k => if k < I.m2 then val F.byteSize (F.lift (c.tAll I (j + I.m1 * k))) else ∑ p ∈ Finset.range I.numParties, val F.byteSize (c.tExtra I F p j))
    (c.polyT F I j) := by
  refine interpolates_congr (interpolates_sum _ _ fun p _ => interpPoly_ok (by omega) _) fun k hk => ?_
  split
  · rename_i h
    unfold tAll
    rw [val_lift_fold, val_lift_zero, zero_add, list_sum_range]
    refine Finset.sum_congr rfl fun p _ => ?_
    rw [(tPts_facts I c p hj).2.2.1 k h]
  · have : k = I.m2 := by omega
    subst this
    refine Finset.sum_congr rfl fun p _ => ?_
    rw [(tPts_facts I c p hj).2.2.2]

theorem polyP_interp (hN : 0 < I.numParties) (hrs : AllRed F.byteSize rs) (hd : AllRed F.byteSize c.pDelta) : Interpolates F.byteSize (2 * I.m2 + 1)
    (fun k => if k < I.m2 then ∑ j ∈ Finset.range I.m1, val F.byteSize (rs.getD j 0)
      else val F.byteSize (c.pDelta.getD (k - I.m2) 0) + ∑ p ∈ Finset.range I.numParties, val F.byteSize (c.pExtra I F p (k - I.m2)))
    (c.polyP F I rs) := by
  refine interpolates_congr (interpolates_sum _ _ fun p _ => interpPoly_ok hI _) fun k hk => ?_
  split
  · rename_i h
    rw [Finset.sum_congr rfl fun p _ => (pPts_facts I c rs hrs hd p).2.2.1 k h, Finset.sum_ite_eq' (Finset.range I.numParties) 0, if_pos (Finset.mem_range.2 hN)]
  · rename_i h
    obtain ⟨i, rfl⟩ : ∃ i, k = I.m2 + i := ⟨k - I.m2, by omega⟩
    rw [Finset.sum_congr rfl fun p _ => (pPts_facts I c rs hrs hd p).2.2.2 i (by omega), Finset.sum_add_distrib, Finset.sum_ite_eq' (Finset.range I.numParties) 0, if_pos (Finset.mem_range.2 hN),
      show I.m2 + i - I.m2 = i by omega]

omit hI in
theorem val_sumA (hR : Reduced F.byteSize R) {j : Nat} (hj : j < I.m1) : Reduced F.byteSize (c.sumA F I pt rs R j) ∧ val F.byteSize (c.sumA F I pt rs R j) = (c.polyS F I pt rs j).eval (val F.byteSize R) := by
  refine ⟨reduced_sum _ _ _ reduced_zero fun p _ => reduced_dotV _ _, ?_⟩
  unfold sumA polyS
  rw [val_sum_range, val_zero, zero_add, eval_finsetSum]
  refine Finset.sum_congr rfl fun p _ => ?_
  obtain ⟨h1, h2, _⟩ := sPts_facts (F := F) I pt c rs p hj
  exact val_dot_lagAt h1 h2 hR

omit hI in
theorem val_sumB (hR : Reduced F.byteSize R) {j : Nat} (hj : j < I.m1) : Reduced F.byteSize (c.sumB F I R j) ∧ val F.byteSize (c.sumB F I R j) = (c.polyT F I j).eval (val F.byteSize R) := by
  refine ⟨reduced_sum _ _ _ reduced_zero fun p _ => reduced_dotV _ _, ?_⟩
  unfold sumB polyT
  rw [val_sum_range, val_zero, zero_add, eval_finsetSum]
  refine Finset.sum_congr rfl fun p _ => ?_
  obtain ⟨h1, h2, _⟩ := tPts_facts (F := F) I c p hj
  exact val_dot_lagAt h1 h2 hR

omit hI in
theorem val_sumC (hR : Reduced F.byteSize R) (hrs : AllRed F.byteSize rs) (hd : AllRed F.byteSize c.pDelta) :
    Reduced F.byteSize (c.sumC F I rs R) ∧ val F.byteSize (c.sumC F I rs R) = (c.polyP F I rs).eval (val F.byteSize R) := by
  refine ⟨reduced_sum _ _ _ reduced_zero fun p _ => reduced_dotV _ _, ?_⟩
  unfold sumC polyP
  rw [val_sum_range, val_zero, zero_add, eval_finsetSum]
  refine Finset.sum_congr rfl fun p _ => ?_
  obtain ⟨h1, h2, _⟩ := pPts_facts (F := F) I c rs hrs hd p
  exact val_dot_lagAt h1 h2 hR

omit hI in
/-- The product check in the field. -/
theorem sumProducts_iff (hR : Reduced F.byteSize R) (hrs : AllRed F.byteSize rs) (hd : AllRed F.byteSize c.pDelta) :
    sumProducts F I ((List.range I.m1).map (c.sumA F I pt rs R)) ((List.range I.m1).map (c.sumB F I R)) = c.sumC F I rs R ↔
    (∑ j ∈ Finset.range I.m1, c.polyS F I pt rs j * c.polyT F I j).eval (val F.byteSize R) = (c.polyP F I rs).eval (val F.byteSize R) := by
  obtain ⟨c1, c2⟩ := val_sumC I c rs R hR hrs hd
  have h : val F.byteSize (sumProducts F I ((List.range I.m1).map (c.sumA F I pt rs R)) ((List.range I.m1).map (c.sumB F I R))) =
      (∑ j ∈ Finset.range I.m1, c.polyS F I pt rs j * c.polyT F I j).eval (val F.byteSize R) := by
    unfold sumProducts
    rw [val_sum_range, val_zero, zero_add, eval_finsetSum]
    refine Finset.sum_congr rfl fun j hj => ?_
    have hj := Finset.mem_range.1 hj
    obtain ⟨a1, a2⟩ := val_sumA I pt c rs R hR hj
    obtain ⟨b1, b2⟩ := val_sumB I c R hR hj
    rw [getD_range_map _ _ _ _ hj, getD_range_map _ _ _ _ hj, val_mul a1 b1, a2, b2, eval_mul]
  have hr : Reduced F.byteSize (sumProducts F I ((List.range I.m1).map (c.sumA F I pt rs R)) ((List.range I.m1).map (c.sumB F I R))) :=
    reduced_sum _ _ _ reduced_zero fun j _ => reduced_apply _
  rw [← h, ← c2]
  exact ⟨fun e => by rw [e], fun e => val_inj hr c1 e⟩

end Ctx

end Banquet
