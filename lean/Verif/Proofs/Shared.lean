import Verif.Spec.Shared
import Verif.Proofs.AesMain

/-! The shared AES evaluation of aes.cpp and its specification. -/

namespace Banquet

open Spec.Aes Spec.Shared

theorem getD_map_range {α : Type} (f : Nat → α) (d : α) {n i : Nat} (h : i < n) : ((List.range n).map f).getD i d = f i := by
  rw [List.getD_eq_getElem?_getD, List.getElem?_map, List.getElem?_range h]
  rfl

theorem run_fold {α β : Type} (n : Nat) (x : Nat → β) (S : Nat → α) (ins : Nat → Bytes) (pos : Nat → Nat) {f : α → β → AesM Bytes α} (hpos : ∀ i < n, pos (i + 1) = pos i + (ins i).length)
    (h : ∀ i < n, ∀ st : Bytes, st.length = pos i → f (S i) (x i) st = (some (S (i + 1)), st ++ ins i)) (st : Bytes) (hst : st.length = pos 0) :
    ((List.range n).map x).foldlM f (S 0) st = (some (S n), st ++ (List.range n).flatMap ins) ∧ (st ++ (List.range n).flatMap ins).length = pos n := by
  induction n with
  | zero => exact ⟨by simp; rfl, by simpa using hst⟩
  | succ n ih =>
    obtain ⟨e, el⟩ := ih (fun i hi => hpos i (by omega)) (fun i hi => h i (by omega))
    simp only [List.range_succ, List.map_append, List.flatMap_append, List.map_singleton, List.flatMap_singleton, List.foldlM_append]
    refine ⟨?_, ?_⟩
    · rw [AesM.bind_run e]
      simp only [List.foldlM_cons, List.foldlM_nil]
      rw [AesM.bind_run (h n (by omega) _ el), ← List.append_assoc]
      rfl
    · rw [← List.append_assoc, List.length_append, el, hpos n (by omega)]

section
variable (first : Bool) (t : Bytes)

/-- Word `i` of the key schedule. -/
def shWord (nk : Nat) (key : Bytes) (i : Nat) : Word := (Spec.Shared.keyExpansion first t nk key (i + 1)).getD i (Vector.replicate 4 0)

theorem length_shExpansion (nk : Nat) (key : Bytes) (n : Nat) : (Spec.Shared.keyExpansion first t nk key n).length = n := by
  induction n with
  | zero => rfl
  | succ n ih => unfold Spec.Shared.keyExpansion; rw [List.length_append, ih]; rfl

theorem shWord_succ (nk : Nat) (key : Bytes) (n : Nat) : shWord first t nk key n = if n < nk then keyWord key n else Spec.Shared.nextWord first t nk (Spec.Shared.keyExpansion first t nk key n) := by
  unfold shWord
  conv_lhs => unfold Spec.Shared.keyExpansion
  dsimp only
  rw [List.getD_eq_getElem?_getD, List.getElem?_append_right (by rw [length_shExpansion]), length_shExpansion, Nat.sub_self]
  rfl

theorem shExpansion_eq (nk : Nat) (key : Bytes) (n : Nat) : Spec.Shared.keyExpansion first t nk key n = (List.range n).map (shWord first t nk key) := by
  induction n with
  | zero => rfl
  | succ n ih =>
    rw [List.range_succ, List.map_append, ← ih, List.map_singleton, shWord_succ]
    rfl

theorem shWord_key (nk : Nat) (key : Bytes) (i : Nat) (h : i < nk) : shWord first t nk key i = keyWord key i := by rw [shWord_succ, if_pos h]

theorem shWord_rec (nk : Nat) (key : Bytes) (i : Nat) (hn : 0 < nk) (h : nk ≤ i) : shWord first t nk key i = (shWord first t nk key (i - nk)).xor
    ((if usesSbox nk i then outWord first t (sboxAt nk i) else shWord first t nk key (i - 1)).xor (constant first nk i)) := by
  rw [shWord_succ, if_neg (by omega)]
  unfold Spec.Shared.nextWord
  rw [length_shExpansion, shExpansion_eq]
  dsimp only
  rw [getD_map_range _ _ (by omega), getD_map_range _ _ (by omega)]

/-- Word given by four S-boxes and the round constant. -/
def shG (k : Nat) (rc : Byte) : Word := (outWord first t k).xor (Vector.ofFn fun r => if first ∧ r.val = 0 then rc else 0)

theorem affLin_affine : ∀ b : Byte, affLin b = affine b ^^^ 0x63 := by
  have : ∀ b : Fin 256, affLin (BitVec.ofFin b) = affine (BitVec.ofFin b) ^^^ 0x63 := by decide +kernel
  exact fun b => this b.toFin

theorem out_eq (k : Nat) : out first t k = affLin (t.getD k 0) ^^^ (if first then affConst else 0) := by
  unfold out
  rw [affLin_affine]
  cases first
  · simp
  · simp only [if_true, affConst]
    rw [BitVec.xor_assoc, BitVec.xor_self]
    rfl

theorem exchange_word (k : Fin 4) (rc : Byte) (s st : Bytes) : ∃ g : Blk, g.bcast k = Blk.ofWords (shG first t st.length rc) (shG first t st.length rc) (shG first t st.length rc) (shG first t st.length rc) ∧
    (do let v ← exchangeWord t (if first then affConst else 0) (if first then rc else 0) s; Pure.pure (Blk.ofWord k v) : AesM Bytes Blk) st = (some g, st ++ s) := by
  refine ⟨_, ?_, rfl⟩
  apply Vector.ext
  intro i hi
  rw [getElem_ofWords]
  simp only [ite_self]
  unfold Blk.bcast Blk.ofWord
  simp only [Vector.getElem_ofFn]
  have e1 : (4 * k.val + i % 4) / 4 = k.val := by omega
  have e2 : (4 * k.val + i % 4) % 4 = i % 4 := by omega
  simp only [e1, e2, if_true]
  unfold shG outWord
  rw [Word.getElem_xor]
  simp only [Vector.getElem_ofFn, out_eq]
  congr 1
  cases first <;> simp

/-- The register with words `4 j` to `4 j + 3`. -/
def shKey (nk : Nat) (key : Bytes) (j : Nat) : Blk :=
  Blk.ofWords (shWord first t nk key (4 * j)) (shWord first t nk key (4 * j + 1)) (shWord first t nk key (4 * j + 2)) (shWord first t nk key (4 * j + 3))

theorem kgen_rot (a b c d : Word) : [(Blk.ofWords a b c d)[13], (Blk.ofWords a b c d)[14], (Blk.ofWords a b c d)[15], (Blk.ofWords a b c d)[12]] = (rotWord d).toList := by
  have e : #v[(Blk.ofWords a b c d)[13], (Blk.ofWords a b c d)[14], (Blk.ofWords a b c d)[15], (Blk.ofWords a b c d)[12]] = rotWord d := by
    apply word_ext
    intro r hr
    unfold rotWord
    rw [Vector.getElem_ofFn]
    interval_cases r <;> simp [getElem_ofWords]
  rw [← e]; rfl

theorem kgen_rot192 (a b c d : Word) : [(Blk.ofWords a b c d)[5], (Blk.ofWords a b c d)[6], (Blk.ofWords a b c d)[7], (Blk.ofWords a b c d)[4]] = (rotWord b).toList := by
  have e : #v[(Blk.ofWords a b c d)[5], (Blk.ofWords a b c d)[6], (Blk.ofWords a b c d)[7], (Blk.ofWords a b c d)[4]] = rotWord b := by
    apply word_ext
    intro r hr
    unfold rotWord
    rw [Vector.getElem_ofFn]
    interval_cases r <;> simp [getElem_ofWords]
  rw [← e]; rfl

theorem kgen_id (a b c d : Word) : [(Blk.ofWords a b c d)[12], (Blk.ofWords a b c d)[13], (Blk.ofWords a b c d)[14], (Blk.ofWords a b c d)[15]] = d.toList := by
  have e : #v[(Blk.ofWords a b c d)[12], (Blk.ofWords a b c d)[13], (Blk.ofWords a b c d)[14], (Blk.ofWords a b c d)[15]] = d := by
    apply word_ext
    intro r hr
    interval_cases r <;> simp [getElem_ofWords]
  conv_rhs => rw [← e]
  rfl

theorem kgenShare_sh (a b c d : Word) (rc : Byte) (st : Bytes) : ∃ g : Blk, g.bcast 3 = Blk.ofWords (shG first t st.length rc) (shG first t st.length rc) (shG first t st.length rc) (shG first t st.length rc) ∧
    kgenShare first t (Blk.ofWords a b c d) rc st = (some g, st ++ (rotWord d).toList) := by
  have := exchange_word first t 3 rc (rotWord d).toList st
  rw [← kgen_rot a b c d] at this ⊢
  exact this

theorem kgenShare192_sh (a b c d : Word) (rc : Byte) (st : Bytes) : ∃ g : Blk, g.bcast 1 = Blk.ofWords (shG first t st.length rc) (shG first t st.length rc) (shG first t st.length rc) (shG first t st.length rc) ∧
    kgenShare192 first t (Blk.ofWords a b c d) rc st = (some g, st ++ (rotWord b).toList) := by
  have := exchange_word first t 1 rc (rotWord b).toList st
  rw [← kgen_rot192 a b c d] at this ⊢
  exact this

theorem kgenShare256b_sh (a b c d : Word) (st : Bytes) : ∃ g : Blk, g.bcast 2 = Blk.ofWords (shG first t st.length 0) (shG first t st.length 0) (shG first t st.length 0) (shG first t st.length 0) ∧
    kgenShare256b first t (Blk.ofWords a b c d) st = (some g, st ++ d.toList) := by
  have := exchange_word first t 2 0 d.toList st
  rw [ite_self, ← kgen_id a b c d] at this
  rw [← kgen_id a b c d]
  exact this

theorem shG_rc (nk i k : Nat) (hn : 0 < nk) : (outWord first t k).xor (constant first nk (nk * (i + 1))) = shG first t k (rc i) := by
  unfold shG
  congr 1
  apply word_ext
  intro r hr
  unfold constant rcon rc
  rw [Vector.getElem_ofFn]
  cases first
  · simp
  · simp [Nat.mul_div_cancel_left _ hn]

theorem shG_zero (nk i k : Nat) (h : i % nk ≠ 0) : (outWord first t k).xor (constant first nk i) = shG first t k 0 := by
  unfold shG
  congr 1
  apply word_ext
  intro r hr
  unfold constant
  rw [Vector.getElem_ofFn, if_neg (by tauto), ite_self]
  simp

theorem xor_constant (nk i : Nat) (h : i % nk ≠ 0) (w : Word) : w.xor (constant first nk i) = w := by
  unfold constant
  rw [if_neg (by tauto)]
  exact xor_zeroW w

theorem shWord_rec0 (nk : Nat) (key : Bytes) (i : Nat) (hn : 0 < nk) :
    shWord first t nk key (nk * (i + 1)) = (shWord first t nk key (nk * i)).xor (shG first t (sboxAt nk (nk * (i + 1))) (rc i)) := by
  have hge : nk ≤ nk * (i + 1) := Nat.le_mul_of_pos_right _ (by omega)
  have hu : usesSbox nk (nk * (i + 1)) = true := by simp [usesSbox, hge]
  rw [shWord_rec _ _ nk key _ hn hge, if_pos hu, shG_rc _ _ _ _ _ hn, Nat.mul_succ, Nat.add_sub_cancel]

theorem shWord_rec1 (nk : Nat) (key : Bytes) (i j : Nat) (hj : 0 < j) (hj' : j < nk) (h4 : ¬(6 < nk ∧ j = 4)) :
    shWord first t nk key (nk * (i + 1) + j) = (shWord first t nk key (nk * i + j)).xor (shWord first t nk key (nk * (i + 1) + j - 1)) := by
  have hm : (nk * (i + 1) + j) % nk = j := by rw [Nat.mul_add_mod, Nat.mod_eq_of_lt hj']
  have hge : nk ≤ nk * (i + 1) + j := Nat.le_add_right_of_le (Nat.le_mul_of_pos_right _ (by omega))
  have hu : ¬usesSbox nk (nk * (i + 1) + j) = true := by
    simp only [usesSbox, hm]
    simp
    omega
  rw [shWord_rec _ _ nk key _ (by omega) hge, if_neg hu, xor_constant _ _ _ (by omega)]
  congr 2
  rw [Nat.mul_succ]
  omega

theorem shWord_rec4 (nk : Nat) (key : Bytes) (i : Nat) (hn : 6 < nk) :
    shWord first t nk key (nk * (i + 1) + 4) = (shWord first t nk key (nk * i + 4)).xor (shG first t (sboxAt nk (nk * (i + 1) + 4)) 0) := by
  have hm : (nk * (i + 1) + 4) % nk = 4 := by rw [Nat.mul_add_mod, Nat.mod_eq_of_lt (by omega)]
  have hge : nk ≤ nk * (i + 1) + 4 := Nat.le_add_right_of_le (Nat.le_mul_of_pos_right _ (by omega))
  have hu : usesSbox nk (nk * (i + 1) + 4) = true := by simp [usesSbox, hm, hge, hn]
  rw [shWord_rec _ _ nk key _ (by omega) hge, if_pos hu, shG_zero _ _ _ _ _ (by omega)]
  congr 2
  rw [Nat.mul_succ]
  omega

end

/-! ## Key schedules -/

/-- Inputs by word number. -/
def shIns (V : Nat → Word) (nk i : Nat) : Bytes := if usesSbox nk i then (if i % nk = 0 then rotWord (V (i - 1)) else V (i - 1)).toList else []

theorem shIns128 (V : Nat → Word) : (List.range 44).flatMap (shIns V 4) = (List.range 10).flatMap fun i => (rotWord (V (4 * i + 3))).toList := by
  simp [shIns, usesSbox, List.range_succ]
theorem shIns192 (V : Nat → Word) : (List.range 52).flatMap (shIns V 6) = (List.range 8).flatMap fun i => (rotWord (V (6 * i + 5))).toList := by
  simp [shIns, usesSbox, List.range_succ]
theorem shIns256 (V : Nat → Word) : (List.range 60).flatMap (shIns V 8) =
    ((List.range 6).flatMap fun i => (rotWord (V (8 * i + 7))).toList ++ (V (8 * (i + 1) + 3)).toList) ++ (rotWord (V (8 * 6 + 7))).toList := by
  simp [shIns, usesSbox, List.range_succ]

section
variable (first : Bool) (t key : Bytes)

/-- Words `i` on, four of them. -/
def shBlk (nk i : Nat) : Blk := Blk.ofWords (shWord first t nk key i) (shWord first t nk key (i + 1)) (shWord first t nk key (i + 2)) (shWord first t nk key (i + 3))

theorem length_word (w : Word) : w.toList.length = 4 := by simp

theorem sboxAt128 : ∀ i < 10, sboxAt 4 (4 * (i + 1)) = 4 * i := by decide
theorem sboxAt192 : ∀ i < 8, sboxAt 6 (6 * (i + 1)) = 4 * i := by decide
theorem sboxAt256 : ∀ i < 7, sboxAt 8 (8 * (i + 1)) = 8 * i ∧ sboxAt 8 (8 * (i + 1) + 4) = 8 * i + 4 := by decide

/-- A step of the 128-bit schedule. -/
def step128 {σ : Type} (kgen : Blk → Byte → AesM σ Blk) (st : List Blk × Blk) (r : Byte) : AesM σ (List Blk × Blk) := do
  let g ← kgen st.2 r
  Pure.pure (st.1 ++ [keyExp128 st.2 g], keyExp128 st.2 g)

theorem keySched128_fold {σ : Type} (kgen : Blk → Byte → AesM σ Blk) (k : Blk) : keySched128 kgen k = (rcons128.foldlM (step128 kgen) ([k], k) >>= fun r => Pure.pure r.1) := rfl

theorem keySched128_sh : keySched128 (kgenShare first t) (loadBlk key 0) [] = (some ((List.range 11).map (shKey first t 4 key)), (List.range 44).flatMap (shIns (shWord first t 4 key) 4)) := by
  have e0 : loadBlk key 0 = shKey first t 4 key 0 := by
    unfold shKey
    rw [shWord_key _ _ _ _ _ (by omega), shWord_key _ _ _ _ _ (by omega), shWord_key _ _ _ _ _ (by omega), shWord_key _ _ _ _ _ (by omega)]
    exact loadBlk_ofWords key 0
  rw [keySched128_fold, rcons128_eq, e0, shIns128]
  have h := run_fold 10 rc (fun i => ((List.range (i + 1)).map (shKey first t 4 key), shKey first t 4 key i)) (fun i => (rotWord (shWord first t 4 key (4 * i + 3))).toList) (fun i => 4 * i)
    (f := step128 (kgenShare first t)) (fun i _ => by rw [length_word]; ring) (fun i hi st hst => by
      unfold step128
      dsimp only at hst ⊢
      obtain ⟨g, hg, e⟩ := kgenShare_sh first t (shWord first t 4 key (4 * i)) (shWord first t 4 key (4 * i + 1)) (shWord first t 4 key (4 * i + 2)) (shWord first t 4 key (4 * i + 3)) (rc i) st
      have e' : kgenShare first t (shKey first t 4 key i) (rc i) st = (some g, st ++ (rotWord (shWord first t 4 key (4 * i + 3))).toList) := e
      rw [AesM.bind_run e']
      rw [hst, ← sboxAt128 i hi] at hg
      have hk : keyExp128 (shKey first t 4 key i) g = shKey first t 4 key (i + 1) := by
        unfold shKey
        rw [keyExp128_ofWords _ _ _ _ _ g hg]
        unfold run4
        have h0 := shWord_rec0 first t 4 key i (by omega)
        have h1 := shWord_rec1 first t 4 key i 1 (by omega) (by omega) (by omega)
        have h2 := shWord_rec1 first t 4 key i 2 (by omega) (by omega) (by omega)
        have h3 := shWord_rec1 first t 4 key i 3 (by omega) (by omega) (by omega)
        simp only [Nat.add_sub_cancel, show 4 * (i + 1) + 2 - 1 = 4 * (i + 1) + 1 by omega, show 4 * (i + 1) + 3 - 1 = 4 * (i + 1) + 2 by omega] at h0 h1 h2 h3
        rw [h3, h2, h1, h0]
      rw [hk, List.range_succ (n := i + 1), List.map_append]
      rfl) [] rfl
  have e1 : (List.range (0 + 1)).map (shKey first t 4 key) = [shKey first t 4 key 0] := rfl
  have h' := h.1
  rw [e1, List.nil_append] at h'
  rw [AesM.bind_run h']
  rfl

theorem keySched192_sh : keySched192 (kgenShare192 first t) (loadBlk key 0) (loadBlk key 16) [] =
    (some ((List.range 13).map (shKey first t 6 key)), (List.range 52).flatMap (shIns (shWord first t 6 key) 6)) := by
  have hstep : ∀ i (uv : Word × Word), ∃ uv' : Word × Word, ∀ g : Blk,
      g.bcast 1 = Blk.ofWords (shG first t (sboxAt 6 (6 * (i + 1))) (rc i)) (shG first t (sboxAt 6 (6 * (i + 1))) (rc i)) (shG first t (sboxAt 6 (6 * (i + 1))) (rc i)) (shG first t (sboxAt 6 (6 * (i + 1))) (rc i)) →
      key192Assist (shBlk first t key 6 (6 * i)) g (Blk.ofWords (shWord first t 6 key (6 * i + 4)) (shWord first t 6 key (6 * i + 5)) uv.1 uv.2) =
      (shBlk first t key 6 (6 * (i + 1)), Blk.ofWords (shWord first t 6 key (6 * (i + 1) + 4)) (shWord first t 6 key (6 * (i + 1) + 5)) uv'.1 uv'.2) := by
    intro i uv
    obtain ⟨u', v', h⟩ := key192Assist_ofWords (shWord first t 6 key (6 * i)) (shWord first t 6 key (6 * i + 1)) (shWord first t 6 key (6 * i + 2)) (shWord first t 6 key (6 * i + 3))
      (shG first t (sboxAt 6 (6 * (i + 1))) (rc i)) (shWord first t 6 key (6 * i + 4)) (shWord first t 6 key (6 * i + 5)) uv.1 uv.2
    refine ⟨(u', v'), fun g hg => ?_⟩
    unfold shBlk
    rw [h g hg]
    unfold run4
    have h0 := shWord_rec0 first t 6 key i (by omega)
    have h1 := shWord_rec1 first t 6 key i 1 (by omega) (by omega) (by omega)
    have h2 := shWord_rec1 first t 6 key i 2 (by omega) (by omega) (by omega)
    have h3 := shWord_rec1 first t 6 key i 3 (by omega) (by omega) (by omega)
    have h4 := shWord_rec1 first t 6 key i 4 (by omega) (by omega) (by omega)
    have h5 := shWord_rec1 first t 6 key i 5 (by omega) (by omega) (by omega)
    simp only [Nat.add_sub_cancel, show 6 * (i + 1) + 2 - 1 = 6 * (i + 1) + 1 by omega, show 6 * (i + 1) + 3 - 1 = 6 * (i + 1) + 2 by omega, show 6 * (i + 1) + 4 - 1 = 6 * (i + 1) + 3 by omega,
      show 6 * (i + 1) + 5 - 1 = 6 * (i + 1) + 4 by omega] at h0 h1 h2 h3 h4 h5
    rw [h5, h4, h3, h2, h1, h0]
  choose nxt hnxt using hstep
  let uv : Nat → Word × Word := fun i => Nat.rec (keyWord key 6, keyWord key 7) nxt i
  let A : Nat → Blk := fun i => shBlk first t key 6 (6 * i)
  let C : Nat → Blk := fun i => Blk.ofWords (shWord first t 6 key (6 * i + 4)) (shWord first t 6 key (6 * i + 5)) (uv i).1 (uv i).2
  have e0 : loadBlk key 0 = A 0 := by
    change _ = shBlk first t key 6 (6 * 0)
    unfold shBlk
    rw [shWord_key _ _ _ _ _ (by omega), shWord_key _ _ _ _ _ (by omega), shWord_key _ _ _ _ _ (by omega), shWord_key _ _ _ _ _ (by omega)]
    exact loadBlk_ofWords key 0
  have e1 : loadBlk key 16 = C 0 := by
    change _ = Blk.ofWords (shWord first t 6 key (6 * 0 + 4)) (shWord first t 6 key (6 * 0 + 5)) (uv 0).1 (uv 0).2
    rw [shWord_key _ _ _ _ _ (by omega), shWord_key _ _ _ _ _ (by omega)]
    exact loadBlk_ofWords key 4
  rw [keySched192_fold, rcons192_eq, e0, e1, shIns192]
  have h := run_fold 8 rc (fun i => ((List.range (i + 1)).map (fun i => (A i, C i)), (A i, C i))) (fun i => (rotWord (shWord first t 6 key (6 * i + 5))).toList) (fun i => 4 * i)
    (f := step192 (kgenShare192 first t)) (fun i _ => by rw [length_word]; ring) (fun i hi st hst => by
      unfold step192
      dsimp only at hst ⊢
      obtain ⟨g, hg, e⟩ := kgenShare192_sh first t (shWord first t 6 key (6 * i + 4)) (shWord first t 6 key (6 * i + 5)) (uv i).1 (uv i).2 (rc i) st
      have e' : kgenShare192 first t (C i) (rc i) st = (some g, st ++ (rotWord (shWord first t 6 key (6 * i + 5))).toList) := e
      rw [AesM.bind_run e']
      rw [hst, ← sboxAt192 i hi] at hg
      have hk : key192Assist (A i) g (C i) = (A (i + 1), C (i + 1)) := hnxt i (uv i) g hg
      rw [hk, List.range_succ (n := i + 1), List.map_append]
      rfl) [] rfl
  have e2 : (List.range (0 + 1)).map (fun i => (A i, C i)) = [(A 0, C 0)] := rfl
  have h' := h.1
  rw [e2, List.nil_append] at h'
  rw [AesM.bind_run h', AesM.pure_run]
  have hl := layout192_eq (shWord first t 6 key) (fun i => (uv i).1) (fun i => (uv i).2)
  refine Prod.ext (congrArg some ?_) rfl
  have hA : ∀ i < 9, (((List.range (8 + 1)).map (fun i => (A i, C i))).getD i (A 0, C 0)) = (A i, C i) := fun i hi => getD_map_range _ _ hi
  refine Eq.trans ?_ hl
  unfold layout192
  simp only [hA _ (by omega : 0 < 9), hA _ (by omega : 1 < 9), hA _ (by omega : 2 < 9), hA _ (by omega : 3 < 9), hA _ (by omega : 4 < 9), hA _ (by omega : 5 < 9), hA _ (by omega : 6 < 9),
    hA _ (by omega : 7 < 9), hA _ (by omega : 8 < 9)]
  rfl

theorem keySched256_sh : keySched256 (kgenShare first t) (kgenShare256b first t) (loadBlk key 0) (loadBlk key 16) [] =
    (some ((List.range 15).map (shKey first t 8 key)), (List.range 60).flatMap (shIns (shWord first t 8 key) 8)) := by
  have e0 : loadBlk key 0 = shKey first t 8 key 0 := by
    unfold shKey
    rw [shWord_key _ _ _ _ _ (by omega), shWord_key _ _ _ _ _ (by omega), shWord_key _ _ _ _ _ (by omega), shWord_key _ _ _ _ _ (by omega)]
    exact loadBlk_ofWords key 0
  have e1 : loadBlk key 16 = shKey first t 8 key 1 := by
    unfold shKey
    rw [shWord_key _ _ _ _ _ (by omega), shWord_key _ _ _ _ _ (by omega), shWord_key _ _ _ _ _ (by omega), shWord_key _ _ _ _ _ (by omega)]
    exact loadBlk_ofWords key 4
  have s1 : ∀ i < 7, ∀ st : Bytes, st.length = 8 * i → ∃ g, kgenShare first t (shKey first t 8 key (2 * i + 1)) (rc i) st = (some g, st ++ (rotWord (shWord first t 8 key (8 * i + 7))).toList) ∧
      key256Assist1 (shKey first t 8 key (2 * i)) g = shKey first t 8 key (2 * i + 2) := by
    intro i hi st hst
    obtain ⟨g, hg, e⟩ := kgenShare_sh first t (shWord first t 8 key (4 * (2 * i + 1))) (shWord first t 8 key (4 * (2 * i + 1) + 1)) (shWord first t 8 key (4 * (2 * i + 1) + 2)) (shWord first t 8 key (4 * (2 * i + 1) + 3)) (rc i) st
    rw [hst, ← (sboxAt256 i hi).1] at hg
    refine ⟨g, e.trans (by rw [show 4 * (2 * i + 1) + 3 = 8 * i + 7 by omega]), ?_⟩
    unfold shKey
    rw [key256Assist1_ofWords _ _ _ _ _ g hg]
    unfold run4
    have h0 := shWord_rec0 first t 8 key i (by omega)
    have h1 := shWord_rec1 first t 8 key i 1 (by omega) (by omega) (by omega)
    have h2 := shWord_rec1 first t 8 key i 2 (by omega) (by omega) (by omega)
    have h3 := shWord_rec1 first t 8 key i 3 (by omega) (by omega) (by omega)
    simp only [Nat.add_sub_cancel, show 8 * (i + 1) + 2 - 1 = 8 * (i + 1) + 1 by omega, show 8 * (i + 1) + 3 - 1 = 8 * (i + 1) + 2 by omega] at h0 h1 h2 h3
    rw [show 4 * (2 * i + 2) = 8 * (i + 1) by omega, show 4 * (2 * i) = 8 * i by omega, h3, h2, h1, h0]
  have s2 : ∀ i < 6, ∀ st : Bytes, st.length = 8 * i + 4 → ∃ g, kgenShare256b first t (shKey first t 8 key (2 * i + 2)) st = (some g, st ++ (shWord first t 8 key (8 * (i + 1) + 3)).toList) ∧
      key256Assist2 g (shKey first t 8 key (2 * i + 1)) = shKey first t 8 key (2 * i + 3) := by
    intro i hi st hst
    obtain ⟨g, hg, e⟩ := kgenShare256b_sh first t (shWord first t 8 key (4 * (2 * i + 2))) (shWord first t 8 key (4 * (2 * i + 2) + 1)) (shWord first t 8 key (4 * (2 * i + 2) + 2)) (shWord first t 8 key (4 * (2 * i + 2) + 3)) st
    rw [hst, ← (sboxAt256 i (by omega)).2] at hg
    refine ⟨g, e.trans (by rw [show 4 * (2 * i + 2) + 3 = 8 * (i + 1) + 3 by omega]), ?_⟩
    unfold shKey
    rw [key256Assist2_ofWords _ _ _ _ _ g hg]
    unfold run4
    have h0 := shWord_rec4 first t 8 key i (by omega)
    have h1 := shWord_rec1 first t 8 key i 5 (by omega) (by omega) (by omega)
    have h2 := shWord_rec1 first t 8 key i 6 (by omega) (by omega) (by omega)
    have h3 := shWord_rec1 first t 8 key i 7 (by omega) (by omega) (by omega)
    simp only [show 8 * (i + 1) + 5 - 1 = 8 * (i + 1) + 4 by omega, show 8 * (i + 1) + 6 - 1 = 8 * (i + 1) + 5 by omega, show 8 * (i + 1) + 7 - 1 = 8 * (i + 1) + 6 by omega] at h1 h2 h3
    rw [show 4 * (2 * i + 3) = 8 * (i + 1) + 4 by omega, show 4 * (2 * i + 1) = 8 * i + 4 by omega]
    rw [show 8 * (i + 1) + 4 + 1 = 8 * (i + 1) + 5 from rfl, show 8 * (i + 1) + 4 + 2 = 8 * (i + 1) + 6 from rfl, show 8 * (i + 1) + 4 + 3 = 8 * (i + 1) + 7 from rfl,
      show 8 * i + 4 + 1 = 8 * i + 5 from rfl, show 8 * i + 4 + 2 = 8 * i + 6 from rfl, show 8 * i + 4 + 3 = 8 * i + 7 from rfl, h3, h2, h1, h0]
  rw [keySched256_fold, rcons256_eq, e0, e1, shIns256]
  obtain ⟨h, hl⟩ := run_fold 6 rc (fun i => ((List.range (2 * i + 2)).map (shKey first t 8 key), shKey first t 8 key (2 * i), shKey first t 8 key (2 * i + 1)))
    (fun i => (rotWord (shWord first t 8 key (8 * i + 7))).toList ++ (shWord first t 8 key (8 * (i + 1) + 3)).toList) (fun i => 8 * i)
    (f := step256 (kgenShare first t) (kgenShare256b first t)) (fun i _ => by rw [List.length_append, length_word, length_word]; ring) (fun i hi st hst => by
      unfold step256
      dsimp only at hst ⊢
      obtain ⟨g, e, hk⟩ := s1 i (by omega) st hst
      obtain ⟨g', e', hk'⟩ := s2 i hi (st ++ (rotWord (shWord first t 8 key (8 * i + 7))).toList) (by rw [List.length_append, length_word, hst])
      rw [AesM.bind_run e, hk, AesM.bind_run e', hk', show 2 * (i + 1) + 2 = 2 * i + 2 + 1 + 1 by omega, List.range_succ (n := 2 * i + 2 + 1), List.range_succ (n := 2 * i + 2), List.map_append, List.map_append,
        List.append_assoc, List.append_assoc]
      rfl) [] rfl
  obtain ⟨g, e, hk⟩ := s1 6 (by omega) _ hl
  rw [show (0x40 : Byte) = rc 6 by decide]
  have e2 : (List.range (2 * 0 + 2)).map (shKey first t 8 key) = [shKey first t 8 key 0, shKey first t 8 key 1] := rfl
  rw [e2, show 2 * 0 = 0 from rfl, show 0 + 1 = 1 from rfl] at h
  rw [AesM.bind_run h, AesM.bind_run e, AesM.pure_run, List.nil_append]
  have hk' : (List.range (2 * 6 + 2)).map (shKey first t 8 key) ++ [key256Assist1 (shKey first t 8 key (2 * 6)) g] = (List.range 15).map (shKey first t 8 key) := by
    rw [hk]
    rfl
  exact Prod.ext (congrArg some hk') rfl

/-! ## Rounds -/

theorem restoreIdx_sh : ∀ i : Fin 16, (restoreIdx[i.val]).val = 4 * (i.val % 4) + (i.val / 4 + i.val % 4) % 4 := by decide

theorem subOut_sh (k : Nat) : subOut first (loadBlk t k) = ofState (subState first t k).shiftRows := by
  apply Vector.ext
  intro i hi
  have hb : ∀ b : Byte, ((rotl8 b 1 ^^^ rotl8 b 3) ^^^ rotl8 (rotl8 b 1 ^^^ rotl8 b 3) 1) ^^^ b = affLin b := by
    have : ∀ b : Fin 256, ((rotl8 (BitVec.ofFin b) 1 ^^^ rotl8 (BitVec.ofFin b) 3) ^^^ rotl8 (rotl8 (BitVec.ofFin b) 1 ^^^ rotl8 (BitVec.ofFin b) 3) 1) ^^^ (BitVec.ofFin b : Byte)
        = affLin (BitVec.ofFin b) := by decide +kernel
    exact fun b => this b.toFin
  have e : (subOut first (loadBlk t k))[i] = affLin ((loadBlk t k)[restoreIdx[i]]) ^^^ (if first then affConst else 0) := by
    rw [← hb]
    unfold subOut
    cases first
    · simp only [Bool.false_eq_true, if_false, Blk.getElem_xor, Blk.rotl, Vector.getElem_ofFn, Fin.getElem_fin]
      exact BitVec.xor_zero.symm
    · simp only [if_true, Blk.getElem_xor, Blk.rotl, Vector.getElem_ofFn, Vector.getElem_replicate, Fin.getElem_fin]
  rw [e, getElem_ofState]
  unfold State.shiftRows subState loadBlk
  simp only [Vector.getElem_ofFn, Fin.getElem_fin, out_eq]
  rw [restoreIdx_sh ⟨i, hi⟩, Nat.add_assoc]

theorem rows_eq (s : State) : (ofState s).rowOrder.toList = rows s := by
  have hb : ∀ m : Blk, m.toList = [m[0], m[1], m[2], m[3], m[4], m[5], m[6], m[7], m[8], m[9], m[10], m[11], m[12], m[13], m[14], m[15]] := by
    intro w
    apply List.ext_getElem
    · simp
    · intro i h1 h2
      have : i < 16 := by simpa using h1
      interval_cases i <;> simp
  rw [hb]
  unfold Blk.rowOrder
  simp only [Vector.getElem_ofFn, getElem_ofState]
  rfl

theorem length_rows (s : State) : (rows s).length = 16 := by rw [← rows_eq]; simp

theorem xor_shKey (nk n : Nat) (s : State) (j : Nat) (h : 4 * j + 3 < n) : (ofState s).xor (shKey first t nk key j) = ofState (s.addRoundKey (Spec.Shared.keyExpansion first t nk key n) j) := by
  unfold ofState shKey
  rw [ofWords_xor, shExpansion_eq]
  unfold State.addRoundKey
  simp only [Vector.getElem_ofFn, Fin.getElem_fin]
  rw [getD_map_range _ _ (by omega), getD_map_range _ _ (by omega), getD_map_range _ _ (by omega), getD_map_range _ _ (by omega)]
  rfl

theorem rounds_sh (nk n : Nat) (w : List Word) (hw : Spec.Shared.keyExpansion first t nk key (4 * (n + 2)) = w) (s : State) (k : Nat) (st : Bytes) (hst : st.length = k) :
    rounds (subShare first t) Blk.imc3 ((List.range (n + 2)).map (shKey first t nk key)) (ofState s) st =
      (some (ofState (Spec.Shared.lastState first t (n + 1) w k)), st ++ (List.range (n + 1)).flatMap fun i => rows (Spec.Shared.roundState first t w s k i)) := by
  have hk : (List.range (n + 2)).map (shKey first t nk key) = shKey first t nk key 0 :: ((List.range n).map (fun i => shKey first t nk key (i + 1)) ++ [shKey first t nk key (n + 1)]) := by
    rw [List.range_succ, List.range_succ_eq_map, List.map_append, List.map_cons, List.map_map]
    rfl
  have hx : ∀ (s : State) j, j < n + 2 → (ofState s).xor (shKey first t nk key j) = ofState (s.addRoundKey w j) := by
    intro s j hj
    rw [← hw]
    exact xor_shKey first t key nk _ s j (by omega)
  rw [hk, rounds_mid, hx s 0 (by omega), List.range_succ, List.flatMap_append, List.flatMap_singleton]
  obtain ⟨h, hl⟩ := run_fold n (fun i => shKey first t nk key (i + 1)) (fun i => ofState (Spec.Shared.roundState first t w s k i)) (fun i => rows (Spec.Shared.roundState first t w s k i)) (fun i => k + 16 * i)
    (f := fun m k => do
      let m ← subShare first t m
      Pure.pure ((Blk.imc3 m).xor k)) (fun i _ => by rw [length_rows]; ring) (fun i hi st hst => by
      refine (AesM.bind_run (subShare_run first t _ st)).trans ?_
      rw [hst, subOut_sh, imc3_ofState, hx _ _ (by omega), rows_eq]
      rfl) st hst
  have h0 : Spec.Shared.roundState first t w s k 0 = s.addRoundKey w 0 := rfl
  rw [h0] at h
  rw [AesM.bind_run h, AesM.bind_run (subShare_run first t _ _), AesM.pure_run, hl, subOut_sh, hx _ _ (by omega), rows_eq, List.append_assoc]
  rfl

theorem partyPt_sh (pt : Bytes) (b : Nat) : partyPt first pt (16 * b) = ofState (start first pt b) := by
  unfold partyPt start
  cases first
  · simp only [Bool.false_eq_true, if_false]
    apply Vector.ext
    intro i hi
    rw [getElem_ofState]
    simp
  · simp only [if_true]
    exact loadBlk_toState pt _

theorem shInputs_eq (nk n : Nat) : Spec.Shared.keyInputs nk (Spec.Shared.keyExpansion first t nk key n) = (List.range n).flatMap (shIns (shWord first t nk key) nk) := by
  unfold Spec.Shared.keyInputs
  rw [length_shExpansion, shExpansion_eq]
  refine List.flatMap_congr fun i hi => ?_
  have hi := List.mem_range.1 hi
  unfold shIns
  rw [getD_map_range _ _ (by omega)]

end

theorem length_shIns (V : Nat → Word) (nk n : Nat) : ((List.range n).flatMap (shIns V nk)).length = sboxAt nk n := by
  unfold sboxAt
  induction n with
  | zero => rfl
  | succ n ih =>
    rw [List.range_succ, List.flatMap_append, List.flatMap_singleton, List.length_append, ih, List.countP_append, List.countP_singleton, Nat.mul_add]
    congr 1
    unfold shIns
    split <;> simp

theorem aesParty_sh (keySize : Nat) (h : keySize = 16 ∨ keySize = 24 ∨ keySize = 32) (first : Bool) (key t pt : Bytes) :
    aesParty keySize first key t pt = evaluate first t (keySize / 4) (nBlocks keySize) key pt := by
  rw [aesParty_eq]
  rcases h with rfl | rfl | rfl
  · have hks := keySched128_sh first t key
    have hl := length_shIns (shWord first t 4 key) 4 44
    have e : partyM 16 first key t pt [] = (some (evaluate first t 4 1 key pt).2, (evaluate first t 4 1 key pt).1) := by
      unfold partyM
      rw [if_pos rfl, AesM.bind_run hks, show partyPt first pt 0 = ofState (start first pt 0) from partyPt_sh first pt 0, AesM.bind_run (rounds_sh first t key 4 9 _ rfl _ _ _ hl)]
      unfold evaluate
      rw [← shInputs_eq]
      simp [List.range_one, ofState_toList]
      rfl
    rw [e]
    rfl
  · have hks := keySched192_sh first t key
    have hl := length_shIns (shWord first t 6 key) 6 52
    have e : partyM 24 first key t pt [] = (some (evaluate first t 6 2 key pt).2, (evaluate first t 6 2 key pt).1) := by
      unfold partyM
      rw [if_neg (by omega), if_pos rfl, AesM.bind_run hks, show partyPt first pt 0 = ofState (start first pt 0) from partyPt_sh first pt 0, AesM.bind_run (rounds_sh first t key 6 11 _ rfl _ _ _ hl),
        show partyPt first pt 16 = ofState (start first pt 1) from partyPt_sh first pt 1, AesM.bind_run (rounds_sh first t key 6 11 _ rfl _ (sboxAt 6 52 + 192) _ (by
          rw [List.length_append, hl]
          simp [length_rows]))]
      unfold evaluate
      rw [← shInputs_eq]
      simp [List.range_succ, ofState_toList]
      rfl
    rw [e]
    rfl
  · have hks := keySched256_sh first t key
    have hl := length_shIns (shWord first t 8 key) 8 60
    have e : partyM 32 first key t pt [] = (some (evaluate first t 8 2 key pt).2, (evaluate first t 8 2 key pt).1) := by
      unfold partyM
      rw [if_neg (by omega), if_neg (by omega), AesM.bind_run hks, show partyPt first pt 0 = ofState (start first pt 0) from partyPt_sh first pt 0, AesM.bind_run (rounds_sh first t key 8 13 _ rfl _ _ _ hl),
        show partyPt first pt 16 = ofState (start first pt 1) from partyPt_sh first pt 1, AesM.bind_run (rounds_sh first t key 8 13 _ rfl _ (sboxAt 8 60 + 224) _ (by
          rw [List.length_append, hl]
          simp [length_rows]))]
      unfold evaluate
      rw [← shInputs_eq]
      simp [List.range_succ, ofState_toList]
      rfl
    rw [e]
    rfl

end Banquet
