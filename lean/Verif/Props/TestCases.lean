import Verif.Model.TestCases
import Verif.Props.Sign
import Verif.Props.Basic
import Verif.Props.Tree
import Verif.Proofs.Hash

/-! Property theorems C98: what the test cases for trees and signatures can show. -/

namespace Banquet.Props

open Spec

private theorem tree64 (X : Xof) : ∃ t, SeedTree.ofSeed X Tests.seed 64 Tests.salt 0 = .ok t := C13_partial X Tests.seed Tests.salt 0 6 (by decide) (by decide) (by norm_num) (by norm_num)

private theorem mapM_true {α : Type*} (l : List α) (f : α → M Bool) (h : ∀ a ∈ l, f a = .ok true) : ∃ bs : List Bool, l.mapM f = .ok bs ∧ bs.all id = true := by
  induction l with
  | nil => exact ⟨[], rfl, rfl⟩
  | cons a l ih =>
    obtain ⟨bs, h1, h2⟩ := ih fun b hb => h b (List.mem_cons_of_mem _ hb)
    refine ⟨true :: bs, ?_, by simpa using h2⟩
    rw [List.mapM_cons, h a List.mem_cons_self, h1]
    rfl

/-- C98. The three test cases for trees pass with every function in place of the hash function. They show that the right nodes are filled, but not with what. -/
theorem C98_trees (X : Xof) : Tests.treeConstructed X = .ok true ∧ Tests.revealConstructed X = .ok true ∧ Tests.treeReconstructed X = .ok true := by
  obtain ⟨t, ht⟩ := tree64 X
  have hl := fun i hi => C10_leaves X Tests.seed Tests.salt 0 64 (by norm_num) (by norm_num) t ht i hi
  obtain ⟨c1, c2, -⟩ := C12_copath X Tests.seed Tests.salt 0 64 (by norm_num) (by norm_num) t 0 (by norm_num) ht
  obtain ⟨t2, ht2⟩ := C11_total X Tests.seed Tests.salt 0 64 (by norm_num) (by norm_num) t 0 (by norm_num) (by decide) ht
  have hr := fun i hi => C11_rebuild X Tests.seed Tests.salt 0 64 (by norm_num) (by norm_num) t t2 0 (by norm_num) ht ht2 i hi
  refine ⟨?_, ?_, ?_⟩
  · unfold Tests.treeConstructed
    rw [ht, ok_bind]
    refine congrArg Except.ok (List.all_eq_true.2 fun i hi => ?_)
    rw [hl i (List.mem_range.1 hi)]
    rfl
  · unfold Tests.revealConstructed
    rw [ht, ok_bind]
    have : Nat.clog 2 64 = 6 := by rw [show 64 = 2 ^ 6 by norm_num]; exact Nat.clog_pow 2 6 (by norm_num)
    simp only [c1, c2, this]
    rfl
  · unfold Tests.treeReconstructed
    rw [ht, ok_bind, ht2, ok_bind]
    obtain ⟨bs, h1, h2⟩ := mapM_true ((List.range 63).map (· + 1)) (Tests.sameLeaf t t2) fun i hi => by
      obtain ⟨j, hj, rfl⟩ := List.mem_map.1 hi
      have hj := List.mem_range.1 hj
      unfold Tests.sameLeaf
      simp only [hr (j + 1) (by omega), hl (j + 1) (by omega), if_neg (Nat.succ_ne_zero j), decide_true]
    rw [h1, ok_bind, h2, hr 0 (by norm_num), if_pos rfl]
    rfl

private theorem instance1 : ∃ I, instanceGet 1 = .ok I ∧ Consistent I ∧ I.aes = aes128Params := by
  obtain ⟨I, h1, h2⟩ := C36_consistent 1 (by norm_num) (by norm_num)
  refine ⟨I, h1, h2, ?_⟩
  have : instanceGet 1 = .ok (instances.getD 1 instances[0]) := rfl
  rw [this] at h1
  obtain rfl := Except.ok.inj h1
  rfl

/-- C98. The test case for signing passes with every hash function, unless a rejection loop takes more than `fuel` iterations. -/
theorem C98_sign (X : Xof) (fuel : Nat) : Tests.signVerify X fuel = .ok true ∨ Tests.signVerify X fuel = .error .fuel := by
  obtain ⟨I, h1, hI, ha⟩ := instance1
  have hk : KeyPair I Tests.key Tests.pk := kat_pair I ha
  obtain ⟨k1, k2, k3, -⟩ := KeyPair.facts hI hk
  unfold Tests.signVerify
  rw [h1, ok_bind]
  rcases C41_total X fuel I hI Tests.key Tests.pk Tests.message k1 k2.ge k3 with ⟨sig, hs⟩ | hs
  · left
    obtain ⟨F, hF⟩ := init_supported hI.lambda
    obtain ⟨bs, hb, -⟩ := C16_encoded X fuel I hI _ _ _ hk sig hs F hF
    rw [hs, ok_bind, hF, ok_bind, hb, ok_bind]
    exact C15_accepted X fuel I hI _ _ _ hk sig hs fuel le_rfl
  · right
    rw [hs]
    rfl

/-- C98. The test case for the encoding passes with every hash function and every key that `banquet_keygen` returns, unless a loop takes too long. -/
theorem C98_roundtrip (X : Xof) (fuel : Nat) (draws : Nat → Bytes × Bytes) (hd : ∀ i, (draws i).1.length = 16 ∧ (draws i).2.length = 16) (tries : Nat) :
    Tests.roundtrip X fuel draws tries = .ok true ∨ Tests.roundtrip X fuel draws tries = .error .fuel := by
  obtain ⟨I, h1, hI, ha⟩ := instance1
  have hd' : ∀ i, (draws i).1.length = I.aes.keySize ∧ (draws i).2.length = I.ctSize := by
    unfold Instance.ctSize
    rw [ha]
    exact hd
  unfold Tests.roundtrip
  rw [h1, ok_bind]
  cases hkg : keygen I draws tries 0 with
  | error e =>
    right
    have : ∀ n i, keygen I draws n i = .error e → e = .fuel := fun n => by
      induction n with
      | zero => intro i h; exact (Except.error.inj h).symm
      | succ n ih =>
        intro i h
        unfold keygen at h
        rw [if_pos (by rw [ha]; exact .inl rfl)] at h
        split at h
        · exact absurd h nofun
        · exact ih _ h
    rw [this _ _ hkg]
    rfl
  | ok kp =>
    obtain ⟨sk, pk⟩ := kp
    have hk := keygen_pair I hI draws hd' tries sk pk hkg
    obtain ⟨k1, k2, k3, -⟩ := KeyPair.facts hI hk
    rw [ok_bind]
    dsimp only
    rcases C41_total X fuel I hI sk pk Tests.message k1 k2.ge k3 with ⟨sig, hs⟩ | hs
    · left
      obtain ⟨F, hF⟩ := init_supported hI.lambda
      obtain ⟨bs, hb, -, sig', hd2, rfl, -⟩ := C16_encoded X fuel I hI _ _ _ hk sig hs F hF
      have hlen : sig'.proofs.length = I.numRounds := by
        obtain ⟨hok, hbs, _⟩ := initExtensionField_ok hF
        have hs' := hs
        unfold sign at hs'
        rw [hF, ok_bind] at hs'
        obtain ⟨⟨ms, hm, wf⟩, _⟩ := signWith_ok hI hbs X fuel sk pk Tests.message k1 k2.ge k3 sig' hs'
        rw [← wf.proofs.length_eq]
        exact (phase3Expand_spec X _ fuel I _ ms hm).1
      obtain ⟨cs, g1, g2⟩ := mapM_true (List.range I.numRounds) (Tests.sameAt sig'.proofs sig'.proofs) fun i hi => by
        have hi := List.mem_range.1 hi
        unfold Tests.sameAt
        rw [List.getElem?_eq_getElem (by omega)]
        simp [Tests.sameProof]
      rw [hs, ok_bind, hF, ok_bind, hb, ok_bind, hd2, ok_bind, g1, ok_bind, g2, hlen]
      simp
    · right
      rw [hs]
      rfl

/-- A hash function with constant output: the tree has the same seed in all nodes but the root, and the test cases pass. -/
example : Tests.treeReconstructed (fun _ _ => ⟨fun _ => 0⟩) = .ok true := (C98_trees _).2.2

/-- With a hash function of constant output no rejection loop runs long, so that the test case for signing passes. -/
example : Tests.signVerify onesXof 100 = .ok true := by
  obtain ⟨I, h1, hI, ha⟩ := instance1
  have e : I = instances.getD 1 instances[0] := Except.ok.inj (h1.symm.trans rfl)
  have hk : KeyPair I Tests.key Tests.pk := kat_pair I ha
  have g2 : (initExtensionField I.lambda >>= fun F => phase2Expand onesXof 100 F I [] (F.firstN I.m2)) = .ok (List.replicate 31 0x01010101) := by rw [e]; decide +kernel
  have g3 : phase3Expand onesXof 100 I [] = .ok (List.replicate 31 1) := by rw [e]; decide +kernel
  obtain ⟨sig, hs⟩ := C41_returns onesXof 100 I hI Tests.key Tests.pk Tests.message hk (fun F h hF => ⟨_, by rw [ones_phase2]; rw [hF, ok_bind] at g2; exact g2⟩) fun h => ⟨_, by rw [ones_phase3]; exact g3⟩
  obtain ⟨F, hF⟩ := init_supported hI.lambda
  obtain ⟨bs, hb, -⟩ := C16_encoded onesXof 100 I hI _ _ _ hk sig hs F hF
  unfold Tests.signVerify
  rw [h1, ok_bind, hs, ok_bind, hF, ok_bind, hb, ok_bind]
  exact C15_accepted onesXof 100 I hI _ _ _ hk sig hs 100 le_rfl

end Banquet.Props
