import Verif.Proofs.Soundness
import Verif.Spec.Challenge
import Mathlib.Data.Set.Finite.List
import Mathlib.Data.Set.Card.Arithmetic
import Mathlib.Data.Fintype.BigOperators
import Mathlib.Data.Nat.Choose.Basic

/-! Counting tables of challenges. -/

namespace Banquet

open Spec FieldOk

/-- Tables with values in `A` that hit the sets `B e` at least `t` times. -/
theorem count_bad {α : Type} {T : Nat} {A : Set α} (hA : A.Finite) (B : Fin T → Set α) {b : Nat} (hB : ∀ e, (B e ∩ A).ncard ≤ b) (t : Nat) :
    {f : Fin T → α | (∀ e, f e ∈ A) ∧ t ≤ {e | f e ∈ B e}.ncard}.ncard ≤ T.choose t * (b ^ t * A.ncard ^ (T - t)) := by
  classical
  let A' := hA.toFinset
  let B' : Fin T → Finset α := fun e => A'.filter (· ∈ B e)
  have cA : A'.card = A.ncard := (Set.ncard_eq_toFinset_card A hA).symm
  have cB : ∀ e, (B' e).card ≤ b := fun e => by
    refine le_trans (le_of_eq ?_) (hB e)
    rw [← Set.ncard_coe_finset]
    congr 1
    ext x
    simp [B', A', and_comm]
  let U := (Finset.univ.powersetCard t).biUnion fun S : Finset (Fin T) => Fintype.piFinset fun e => if e ∈ S then B' e else A'
  refine le_trans (Set.ncard_le_ncard (t := (U : Set (Fin T → α))) ?_ (Finset.finite_toSet U)) ?_
  · rintro f ⟨h1, h2⟩
    rw [Set.ncard_eq_toFinset_card' {e | f e ∈ B e}] at h2
    obtain ⟨S, hS, hc⟩ := Finset.exists_subset_card_eq h2
    refine Finset.mem_coe.2 (Finset.mem_biUnion.2 ⟨S, Finset.mem_powersetCard.2 ⟨Finset.subset_univ S, hc⟩, Fintype.mem_piFinset.2 fun e => ?_⟩)
    split
    · rename_i he
      exact Finset.mem_filter.2 ⟨hA.mem_toFinset.2 (h1 e), by simpa using hS he⟩
    · exact hA.mem_toFinset.2 (h1 e)
  · rw [Set.ncard_coe_finset]
    refine le_trans Finset.card_biUnion_le ?_
    refine le_trans (Finset.sum_le_card_nsmul _ _ (b ^ t * A.ncard ^ (T - t)) fun S hS => ?_) (le_of_eq ?_)
    · have hc := (Finset.mem_powersetCard.1 hS).2
      rw [Fintype.card_piFinset]
      refine le_trans (Finset.prod_le_prod' (g := fun e => if e ∈ S then b else A.ncard) fun e _ => ?_) (le_of_eq ?_)
      · split
        · exact cB e
        · exact le_of_eq cA
      · rw [Finset.prod_ite, Finset.prod_const, Finset.prod_const, Finset.filter_mem_eq_inter, Finset.univ_inter, hc]
        congr 2
        rw [Finset.filter_not, Finset.filter_mem_eq_inter, Finset.univ_inter, Finset.card_sdiff, Finset.inter_univ, Finset.card_univ, Fintype.card_fin, hc]
    · rw [Finset.card_powersetCard, Finset.card_univ, Fintype.card_fin, smul_eq_mul]

/-- Tables of parties with at most one allowed party in each place outside `G`. -/
theorem count_few {T N : Nat} (W : Fin T → Set Nat) (hW : ∀ e, ∀ m ∈ W e, m < N) (G : Set (Fin T)) (hG : ∀ e, e ∉ G → ∀ m ∈ W e, ∀ m' ∈ W e, m = m') :
    {ms : Fin T → Nat | ∀ e, ms e ∈ W e}.ncard ≤ N ^ G.ncard := by
  classical
  have hf : ∀ e, (W e).Finite := fun e => (Set.finite_lt_nat N).subset fun m hm => hW e m hm
  let U := Fintype.piFinset fun e => (hf e).toFinset
  refine le_trans (Set.ncard_le_ncard (t := (U : Set (Fin T → Nat))) (fun ms h => ?_) (Finset.finite_toSet U)) ?_
  · exact Finset.mem_coe.2 (Fintype.mem_piFinset.2 fun e => (hf e).mem_toFinset.2 (h e))
  · rw [Set.ncard_coe_finset, Fintype.card_piFinset]
    refine le_trans (Finset.prod_le_prod' (g := fun e => if e ∈ G.toFinset then N else 1) fun e _ => ?_) (le_of_eq ?_)
    · split
      · refine le_trans (Finset.card_le_card (t := Finset.range N) fun m hm => Finset.mem_range.2 (hW e m ((hf e).mem_toFinset.1 hm))) (le_of_eq (Finset.card_range N))
      · rename_i he
        exact Finset.card_le_one.2 fun m hm m' hm' => hG e (by simpa using he) m ((hf e).mem_toFinset.1 hm) m' ((hf e).mem_toFinset.1 hm')
    · rw [Finset.prod_ite, Finset.prod_const, Finset.prod_const, one_pow, mul_one, Finset.filter_mem_eq_inter, Finset.univ_inter, Set.ncard_eq_toFinset_card']

/-- Number of tables. -/
theorem count_tables {α : Type} (T : Nat) {A : Set α} (hA : A.Finite) : {f : Fin T → α | ∀ e, f e ∈ A}.ncard = A.ncard ^ T := by
  classical
  have e : {f : Fin T → α | ∀ e, f e ∈ A} = (Fintype.piFinset fun _ : Fin T => hA.toFinset : Finset (Fin T → α)) := by
    ext f
    simp
  rw [e, Set.ncard_coe_finset, Fintype.card_piFinset_const, Set.ncard_eq_toFinset_card A hA]

/-- Number of lists. -/
theorem count_lists {α : Type} {A : Set α} (n : Nat) : {l : List α | l.length = n ∧ ∀ x ∈ l, x ∈ A}.ncard = A.ncard ^ n := by
  induction n with
  | zero =>
    have e : {l : List α | l.length = 0 ∧ ∀ x ∈ l, x ∈ A} = {[]} := by
      ext l
      simp only [Set.mem_ofPred_eq, List.length_eq_zero_iff, Set.mem_singleton_iff]
      exact ⟨fun h => h.1, fun h => ⟨h, by simp [h]⟩⟩
    rw [e, Set.ncard_singleton, pow_zero]
  | succ n ih =>
    have e : {l : List α | l.length = n + 1 ∧ ∀ x ∈ l, x ∈ A} = (fun p : α × List α => p.1 :: p.2) '' (A ×ˢ {l : List α | l.length = n ∧ ∀ x ∈ l, x ∈ A}) := by
      ext l
      constructor
      · rintro ⟨h1, h2⟩
        cases l with
        | nil => simp at h1
        | cons x l => exact ⟨(x, l), ⟨h2 x (by simp), by simpa using h1, fun y hy => h2 y (by simp [hy])⟩, rfl⟩
      · rintro ⟨⟨x, l⟩, ⟨h1, h2, h3⟩, rfl⟩
        refine ⟨by simpa using h2, fun y hy => ?_⟩
        rcases List.mem_cons.1 hy with rfl | hy
        · exact h1
        · exact h3 y hy
    rw [e, Set.ncard_image_of_injective, Set.ncard_prod, ih, pow_succ, mul_comm]
    rintro ⟨x, l⟩ ⟨y, m⟩ h
    simpa using h

/-- Pairs whose second part is one of at most `b`. -/
theorem count_pairs {α β : Type} {A : Set α} (hA : A.Finite) (S : α → Set β) {b : Nat} (hS : ∀ a ∈ A, (S a).Finite ∧ (S a).ncard ≤ b) :
    {x : α × β | x.1 ∈ A ∧ x.2 ∈ S x.1}.Finite ∧ {x : α × β | x.1 ∈ A ∧ x.2 ∈ S x.1}.ncard ≤ A.ncard * b := by
  classical
  let U := hA.toFinset.attach.biUnion fun a => ((hS a.1 (hA.mem_toFinset.1 a.2)).1.toFinset).image fun y => (a.1, y)
  have hU : {x : α × β | x.1 ∈ A ∧ x.2 ∈ S x.1} ⊆ (U : Set (α × β)) := by
    rintro ⟨x, y⟩ ⟨h1, h2⟩
    exact Finset.mem_coe.2 (Finset.mem_biUnion.2 ⟨⟨x, hA.mem_toFinset.2 h1⟩, Finset.mem_attach _ _, Finset.mem_image.2 ⟨y, (Set.Finite.mem_toFinset _).2 h2, rfl⟩⟩)
  refine ⟨(Finset.finite_toSet U).subset hU, le_trans (Set.ncard_le_ncard hU (Finset.finite_toSet U)) ?_⟩
  rw [Set.ncard_coe_finset]
  refine le_trans Finset.card_biUnion_le (le_trans (Finset.sum_le_card_nsmul _ _ b fun a _ => ?_) (le_of_eq ?_))
  · refine le_trans Finset.card_image_le ?_
    rw [← Set.ncard_eq_toFinset_card _ (hS a.1 (hA.mem_toFinset.1 a.2)).1]
    exact (hS a.1 (hA.mem_toFinset.1 a.2)).2
  · rw [Finset.card_attach, smul_eq_mul, Set.ncard_eq_toFinset_card A hA]

section
variable {F : FieldState} [hF : FieldOk F]

instance : Finite W64 := Finite.of_injective BitVec.toFin fun _ _ h => BitVec.eq_of_toFin_eq h

/-- Words for sets of field elements. -/
theorem count_words (B : Set (GF F.byteSize)) : {w : W64 | Reduced F.byteSize w ∧ val F.byteSize w ∈ B}.ncard = B.ncard := by
  refine le_antisymm (words_card fun w hw => hw) ?_
  have e : B ⊆ val F.byteSize '' {w : W64 | Reduced F.byteSize w ∧ val F.byteSize w ∈ B} := fun k hk => by
    obtain ⟨w, h1, h2⟩ := val_surj (F := F) k
    exact ⟨w, ⟨h1, by rw [h2]; exact hk⟩, h2⟩
  exact le_trans (Set.ncard_le_ncard e (Set.toFinite _)) (Set.ncard_image_le (Set.toFinite _))

theorem count_reduced : {w : W64 | Reduced F.byteSize w}.ncard = 2 ^ (8 * F.byteSize) := by
  have := count_words (F := F) Set.univ
  rw [Set.ncard_univ, card_gf] at this
  rw [← this]
  congr 1
  ext w
  simp

theorem count_fresh {m2 : Nat} (h : m2 ≤ 21845) : {w : W64 | Reduced F.byteSize w ∧ Fresh F.byteSize m2 w}.ncard = 2 ^ (8 * F.byteSize) - m2 := by
  have e : {w : W64 | Reduced F.byteSize w ∧ Fresh F.byteSize m2 w} = {w : W64 | Reduced F.byteSize w ∧ val F.byteSize w ∈ ((point F.byteSize) '' {k | k < m2})ᶜ} := by
    ext w
    refine and_congr_right fun _ => ?_
    simp only [Set.mem_compl_iff, Set.mem_image, Set.mem_ofPred_eq, not_exists, not_and]
    exact ⟨fun hw k hk e => hw k hk e.symm, fun hw k hk e => hw k hk e.symm⟩
  rw [e, count_words, Set.ncard_compl, card_gf, Set.ncard_image_of_injOn, show {k | k < m2} = ((Finset.range m2 : Finset Nat) : Set Nat) by ext; simp, Set.ncard_coe_finset, Finset.card_range]
  intro i hi j hj hij
  exact point_inj (F := F) (lt_of_lt_of_le hi h) (lt_of_lt_of_le hj h) hij

end

end Banquet
