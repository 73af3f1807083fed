import Verif.Proofs.AesFull
import Verif.Proofs.AesMain
import Verif.Proofs.Verify

/-! For every key and ciphertext there are S-box "outputs" with which the shared AES evaluation yields that ciphertext: the last outputs are free. -/

namespace Banquet

/-- The computation reads `n` of the given S-box outputs and depends on no others. -/
def Dep {α : Type} (n : Nat) (x : Bytes → AesM Bytes α) : Prop :=
  ∀ T T' st : Bytes, (∀ i < st.length + n, T.getD i 0 = T'.getD i 0) → ∃ v d, d.length = n ∧ x T st = (some v, st ++ d) ∧ x T' st = (some v, st ++ d)

theorem Dep.pure {α : Type} (a : α) : Dep 0 (fun _ => Pure.pure a) := fun T T' st _ => ⟨a, [], rfl, (AesM.pure_run a st).trans (by rw [List.append_nil]), (AesM.pure_run a st).trans (by rw [List.append_nil])⟩

theorem Dep.bind {α β : Type} {n m : Nat} {x : Bytes → AesM Bytes α} {f : Bytes → α → AesM Bytes β} (hx : Dep n x) (hf : ∀ a, Dep m fun T => f T a) : Dep (n + m) fun T => x T >>= f T := by
  intro T T' st h
  obtain ⟨v, d, l, e, e'⟩ := hx T T' st fun i hi => h i (by omega)
  obtain ⟨w, d2, l2, e2, e2'⟩ := hf v T T' (st ++ d) fun i hi => h i (by rw [List.length_append] at hi; omega)
  exact ⟨w, d ++ d2, by simp; omega, (AesM.bind_run e).trans (e2.trans (by rw [List.append_assoc])), (AesM.bind_run e').trans (e2'.trans (by rw [List.append_assoc]))⟩

theorem Dep.foldlM {α β : Type} {n : Nat} (l : List β) {f : Bytes → α → β → AesM Bytes α} (hf : ∀ a b, Dep n fun T => f T a b) (a : α) : Dep (n * l.length) fun T => l.foldlM (f T) a := by
  induction l generalizing a with
  | nil => exact Dep.pure a
  | cons b l ih =>
    simp only [List.foldlM_cons]
    have := (hf a b).bind (f := fun T a' => l.foldlM (f T) a') fun a' => ih a'
    rw [List.length_cons, Nat.mul_add, Nat.mul_one, Nat.add_comm]
    exact this

theorem Dep.cast {α : Type} {n m : Nat} {x : Bytes → AesM Bytes α} (h : Dep n x) (e : n = m) : Dep m x := e ▸ h

theorem exchangeWord_dep (aff rc : Byte) (s : Bytes) (hs : s.length = 4) : Dep 4 fun T => exchangeWord T aff rc s := by
  intro T T' st h
  refine ⟨_, s, hs, rfl, ?_⟩
  unfold exchangeWord
  dsimp only
  congr 2
  apply Vector.ext
  intro i hi
  simp only [Vector.getElem_ofFn]
  rw [h (st.length + i) (by omega)]

theorem kgenShare_dep (f : Bool) (m : Blk) (rc : Byte) : Dep 4 fun T => kgenShare f T m rc := (exchangeWord_dep _ _ _ rfl).bind fun _ => Dep.pure _

theorem kgenShare192_dep (f : Bool) (m : Blk) (rc : Byte) : Dep 4 fun T => kgenShare192 f T m rc := (exchangeWord_dep _ _ _ rfl).bind fun _ => Dep.pure _

theorem kgenShare256b_dep (f : Bool) (m : Blk) : Dep 4 fun T => kgenShare256b f T m := (exchangeWord_dep _ _ _ rfl).bind fun _ => Dep.pure _

theorem keySched128_dep (f : Bool) (k : Blk) : Dep 40 fun T => keySched128 (kgenShare f T) k := by
  unfold keySched128
  refine Dep.bind (n := 40) (m := 0) ?_ fun _ => Dep.pure _
  exact Dep.foldlM (n := 4) rcons128 (fun a b => Dep.bind (m := 0) (kgenShare_dep f _ _) fun _ => Dep.pure _) _

theorem keySched192_dep (f : Bool) (k1 k3 : Blk) : Dep 32 fun T => keySched192 (kgenShare192 f T) k1 k3 := by
  unfold keySched192
  refine Dep.bind (n := 4) (m := 28) (kgenShare192_dep f _ _) fun _ => ?_
  refine Dep.bind (n := 4) (m := 24) (kgenShare192_dep f _ _) fun _ => ?_
  refine Dep.bind (n := 4) (m := 20) (kgenShare192_dep f _ _) fun _ => ?_
  refine Dep.bind (n := 4) (m := 16) (kgenShare192_dep f _ _) fun _ => ?_
  refine Dep.bind (n := 4) (m := 12) (kgenShare192_dep f _ _) fun _ => ?_
  refine Dep.bind (n := 4) (m := 8) (kgenShare192_dep f _ _) fun _ => ?_
  refine Dep.bind (n := 4) (m := 4) (kgenShare192_dep f _ _) fun _ => ?_
  exact Dep.bind (n := 4) (m := 0) (kgenShare192_dep f _ _) fun _ => Dep.pure _

theorem keySched256_dep (f : Bool) (k1 k3 : Blk) : Dep 52 fun T => keySched256 (kgenShare f T) (kgenShare256b f T) k1 k3 := by
  unfold keySched256
  refine Dep.bind (n := 48) (m := 4) ?_ fun _ => Dep.bind (n := 4) (m := 0) (kgenShare_dep f _ _) fun _ => Dep.pure _
  refine Dep.foldlM (n := 8) rcons256 (fun a b => ?_) _
  refine Dep.bind (n := 4) (m := 4) (kgenShare_dep f _ _) fun _ => ?_
  exact Dep.bind (n := 4) (m := 0) (kgenShare256b_dep f _) fun _ => Dep.pure _

/-- The result of the rounds comes from the last 16 outputs and the last round key. -/
theorem rounds_out (f : Bool) (T : Bytes) (mix : Blk → Blk) (ks : List Blk) (n : Nat) (hk : ks.length = n + 2) (pt : Blk) (st : Bytes) : ∃ d, d.length = 16 * (n + 1) ∧
    rounds (subShare f T) mix ks pt st = (some ((subOut f (loadBlk T (st.length + 16 * n))).xor (ks.getLastD (Vector.replicate 16 0))), st ++ d) := by
  have hm : Dep (16 * n) fun _ : Bytes => ((ks.drop 1).dropLast).foldlM (fun m k => do
      let m ← subShare f T m
      Pure.pure ((mix m).xor k)) (pt.xor (ks.getD 0 (Vector.replicate 16 0))) := by
    refine Dep.cast (Dep.foldlM (n := 16) _ (f := fun _ m k => do
      let m ← subShare f T m
      Pure.pure ((mix m).xor k)) (fun a b => ?_) _) (by simp; omega)
    exact Dep.bind (n := 16) (m := 0) (fun _ _ st _ => ⟨_, a.rowOrder.toList, by simp, rfl, rfl⟩) fun _ => Dep.pure _
  obtain ⟨v, d, l, e, _⟩ := hm T T st fun _ _ => rfl
  refine ⟨d ++ v.rowOrder.toList, by simp; omega, ?_⟩
  unfold rounds
  refine (AesM.bind_run e).trans ((AesM.bind_run (subShare_run f T v (st ++ d))).trans ((AesM.pure_run _ _).trans ?_))
  rw [List.length_append, l, List.append_assoc]

/-! ## Inverting the last substitution -/

/-- Inverse of the linear part of the S-box. -/
def unAff (b : Byte) : Byte := rotl8 b 1 ^^^ rotl8 b 3 ^^^ rotl8 b 6

/-- Inverse of `restoreIdx`. -/
def placeIdx (r : Nat) : Nat := (4 * ((r % 4 + 4 - r / 4) % 4) + r / 4) % 16

/-- S-box outputs leading to the given change of the state. -/
def unSub (b : Blk) : Blk := Vector.ofFn fun i => unAff (b[placeIdx i]'(Nat.mod_lt _ (by omega)))

theorem unAff_spec (b : Byte) : ((rotl8 (unAff b) 1 ^^^ rotl8 (unAff b) 3) ^^^ rotl8 (rotl8 (unAff b) 1 ^^^ rotl8 (unAff b) 3) 1) ^^^ unAff b = b := by
  have : ∀ b : Fin 256, ((rotl8 (unAff (BitVec.ofFin b)) 1 ^^^ rotl8 (unAff (BitVec.ofFin b)) 3) ^^^ rotl8 (rotl8 (unAff (BitVec.ofFin b)) 1 ^^^ rotl8 (unAff (BitVec.ofFin b)) 3) 1) ^^^ unAff (BitVec.ofFin b)
      = (BitVec.ofFin b : Byte) := by decide +kernel
  exact this b.toFin

theorem placeIdx_spec : ∀ i : Fin 16, placeIdx (restoreIdx[i.val]).val = i.val := by decide

theorem subOut_unSub (b : Blk) : subOut false (unSub b) = b := by
  apply Vector.ext
  intro i hi
  have e : (unSub b)[restoreIdx[i]] = unAff b[i] := by
    unfold unSub
    rw [Fin.getElem_fin, Vector.getElem_ofFn]
    congr 1
    exact getElem_congr_idx (placeIdx_spec ⟨i, hi⟩)
  have e2 : (subOut false (unSub b))[i] = ((rotl8 ((unSub b)[restoreIdx[i]]) 1 ^^^ rotl8 ((unSub b)[restoreIdx[i]]) 3) ^^^ rotl8 (rotl8 ((unSub b)[restoreIdx[i]]) 1 ^^^ rotl8 ((unSub b)[restoreIdx[i]]) 3) 1) ^^^
      (unSub b)[restoreIdx[i]] := by
    generalize unSub b = u
    unfold subOut
    simp only [Bool.false_eq_true, if_false, Blk.getElem_xor, Blk.rotl, Vector.getElem_ofFn, Fin.getElem_fin]
  rw [e2, e]
  exact unAff_spec _

/-! ## The outputs -/

/-- Position of the last S-box outputs of the first block. -/
def lastPos (keySize : Nat) : Nat := if keySize = 16 then 184 else if keySize = 24 then 208 else 260

/-- S-box outputs for the all-zero key: zero but for the last round of each block, where they correct the ciphertext to `ct`. -/
def forgeT (keySize : Nat) (pt ct : Bytes) : Bytes :=
  let ct0 := (aesParty keySize true (List.replicate keySize 0) (List.replicate (sboxCount keySize) 0) pt).2
  if keySize = 16 then List.replicate 184 0 ++ (unSub (loadBlk (xorBytes ct ct0) 0)).toList
  else List.replicate (lastPos keySize) 0 ++ ((unSub (loadBlk (xorBytes ct ct0) 0)).toList ++
    (List.replicate (sboxCount keySize - lastPos keySize - 32) 0 ++ (unSub (loadBlk (xorBytes ct ct0) 16)).toList))

theorem loadBlk_append (a b : Bytes) (off : Nat) (h : off = a.length) : loadBlk (a ++ b) off = loadBlk b 0 := by
  apply Vector.ext
  intro i hi
  unfold loadBlk
  simp only [Vector.getElem_ofFn]
  rw [List.getD_eq_getElem?_getD, List.getD_eq_getElem?_getD, List.getElem?_append_right (by omega)]
  congr 3
  omega

theorem loadBlk_toList (b : Blk) (r : Bytes) : loadBlk (b.toList ++ r) 0 = b := by
  apply Vector.ext
  intro i hi
  unfold loadBlk
  simp only [Vector.getElem_ofFn]
  rw [List.getD_eq_getElem?_getD, List.getElem?_append_left (by simp; omega), List.getElem?_eq_getElem (by simp; omega)]
  simp

theorem loadBlk_zero (n off : Nat) : loadBlk (List.replicate n 0) off = Vector.replicate 16 0 := by
  apply Vector.ext
  intro i hi
  unfold loadBlk
  simp only [Vector.getElem_ofFn, Vector.getElem_replicate, List.getD_eq_getElem?_getD, List.getElem?_replicate]
  split <;> rfl

theorem xor_zero (b : Blk) : Blk.xor (Vector.replicate 16 0) b = b := by
  apply Vector.ext
  intro i hi
  rw [Blk.getElem_xor, Vector.getElem_replicate]
  exact BitVec.zero_xor

/-- The corrected state. -/
theorem correct (f : Bool) (kl d : Blk) : (subOut f (unSub d)).xor kl = d.xor ((subOut f (Vector.replicate 16 0)).xor kl) := by
  have h := subOut_xor f (Vector.replicate 16 0) (unSub d)
  rw [xor_zero, subOut_unSub] at h
  rw [h]
  apply Vector.ext
  intro i hi
  simp only [Blk.getElem_xor]
  ac_rfl

theorem getD_replicate_append {n : Nat} {r : Bytes} {k i : Nat} (hi : i < n) : (List.replicate n 0 ++ r).getD i 0 = (List.replicate k (0 : Byte)).getD i 0 := by
  rw [List.getD_eq_getElem?_getD, List.getD_eq_getElem?_getD, List.getElem?_append_left (by simpa using hi), List.getElem?_replicate, List.getElem?_replicate, if_pos hi]
  split <;> rfl

theorem xorBytes_cancel {a b : Bytes} (h : a.length = b.length) : xorBytes (xorBytes a b) b = a := by
  refine ext_getD (n := a.length) 0 (by rw [length_xorBytes, length_xorBytes]; omega) rfl fun i _ => ?_
  rw [getD_xorBytes (by rw [length_xorBytes]; omega), getD_xorBytes h, BitVec.xor_assoc, BitVec.xor_self]
  exact BitVec.xor_zero

theorem loadBlk_list (a : Bytes) (h : a.length = 16) : (loadBlk a 0).toList = a := by
  refine ext_getD (n := 16) 0 (by simp) h fun i hi => ?_
  rw [List.getD_eq_getElem?_getD, List.getElem?_eq_getElem (by simpa using hi)]
  unfold loadBlk
  simp

theorem loadBlk_list2 (a : Bytes) (h : a.length = 32) : (loadBlk a 0).toList ++ (loadBlk a 16).toList = a := by
  refine ext_getD (n := 32) 0 (by simp) h fun i hi => ?_
  by_cases hi2 : i < 16
  · rw [List.getD_eq_getElem?_getD, List.getElem?_append_left (by simpa using hi2), List.getElem?_eq_getElem (by simpa using hi2)]
    unfold loadBlk
    simp
  · rw [List.getD_eq_getElem?_getD, List.getElem?_append_right (by simp; omega), List.getElem?_eq_getElem (by simp; omega)]
    unfold loadBlk
    simp only [Vector.getElem_toList, Vector.getElem_ofFn, Option.getD_some, Vector.length_toList]
    rw [show 16 + (i - 16) = i by omega]

theorem length_forgeT (keySize : Nat) (h : keySize = 16 ∨ keySize = 24 ∨ keySize = 32) (pt ct : Bytes) : (forgeT keySize pt ct).length = sboxCount keySize := by
  unfold forgeT
  rcases h with rfl | rfl | rfl
  · dsimp only
    rw [if_pos rfl, List.length_append, List.length_replicate, Vector.length_toList]
    rfl
  · dsimp only
    rw [if_neg (by omega), List.length_append, List.length_append, List.length_append, List.length_replicate, List.length_replicate, Vector.length_toList, Vector.length_toList]
    rfl
  · dsimp only
    rw [if_neg (by omega), List.length_append, List.length_append, List.length_append, List.length_replicate, List.length_replicate, Vector.length_toList, Vector.length_toList]
    rfl

/-- One block. -/
theorem sched_last {α : Type} {n : Nat} {x : Bytes → AesM Bytes α} (h : Dep n x) (k : Nat) (r : Bytes) (m : Nat) (hn : n ≤ m) :
    ∃ v d, d.length = n ∧ x (List.replicate k 0) [] = (some v, d) ∧ x (List.replicate m 0 ++ r) [] = (some v, d) := by
  obtain ⟨v, d, l, e, e'⟩ := h (List.replicate k 0) (List.replicate m 0 ++ r) [] fun i hi => (getD_replicate_append (by simp at hi; omega)).symm
  exact ⟨v, d, l, e, e'⟩

/-- The forged outputs lead to the ciphertext. -/
theorem forgeT_ct (keySize : Nat) (h : keySize = 16 ∨ keySize = 24 ∨ keySize = 32) (pt ct : Bytes) (hct : ct.length = ctLength keySize) :
    (aesParty keySize true (List.replicate keySize 0) (forgeT keySize pt ct) pt).2 = ct := by
  have hl := (aesParty_length keySize true (List.replicate keySize 0) (List.replicate (sboxCount keySize) 0) pt).2
  have hT : ∀ D, xorBytes ct (aesParty keySize true (List.replicate keySize 0) (List.replicate (sboxCount keySize) 0) pt).2 = D →
      xorBytes D (aesParty keySize true (List.replicate keySize 0) (List.replicate (sboxCount keySize) 0) pt).2 = ct := by
    rintro D rfl
    exact xorBytes_cancel (by rw [hl, hct])
  have hD : (xorBytes ct (aesParty keySize true (List.replicate keySize 0) (List.replicate (sboxCount keySize) 0) pt).2).length = ctLength keySize := by
    rw [length_xorBytes, hl, hct, Nat.min_self]
  unfold forgeT
  dsimp only
  generalize hd : xorBytes ct (aesParty keySize true (List.replicate keySize 0) (List.replicate (sboxCount keySize) 0) pt).2 = D at hD ⊢
  have hT := hT D hd
  refine Eq.trans ?_ hT
  clear hT hd hl
  rw [aesParty_eq, aesParty_eq]
  dsimp only
  unfold partyM
  rcases h with rfl | rfl | rfl
  · simp only [if_true]
    have hD : D.length = 16 := hD
    obtain ⟨ks, d, l, e1, e2⟩ := sched_last (keySched128_dep true (loadBlk (List.replicate 16 0) 0)) (sboxCount 16) (unSub (loadBlk D 0)).toList 184 (by omega)
    obtain ⟨_, _, _, _, _, e3, _, _, _, _, hk, _⟩ := keySched128_lin (kgenShare_lin (t := List.replicate (sboxCount 16) 0) (t' := List.replicate (sboxCount 16) 0) rfl true)
      (loadBlk (List.replicate 16 0) 0) (loadBlk (List.replicate 16 0) 0) [] [] rfl
    rw [e1] at e3
    rw [← Option.some.inj (congrArg Prod.fst e3)] at hk
    obtain ⟨d1, l1, f1⟩ := rounds_out true (List.replicate (sboxCount 16) 0) Blk.imc3 ks 9 hk (partyPt true pt 0) d
    obtain ⟨d2, l2, f2⟩ := rounds_out true (List.replicate 184 0 ++ (unSub (loadBlk D 0)).toList) Blk.imc3 ks 9 hk (partyPt true pt 0) d
    rw [AesM.bind_run e1, AesM.bind_run e2, AesM.bind_run f1, AesM.bind_run f2, AesM.pure_run, AesM.pure_run]
    dsimp only [Option.getD_some]
    rw [l, loadBlk_append _ _ _ (by rw [List.length_replicate]), loadBlk_zero]
    have := loadBlk_toList (unSub (loadBlk D 0)) []
    rw [List.append_nil] at this
    rw [this, correct, Blk.xor_toList, loadBlk_list D hD]
  · simp only [if_true, show ¬ (24 = 16) by omega, if_false]
    have hD : D.length = 32 := hD
    generalize hT : (unSub (loadBlk D 0)).toList ++ (List.replicate (sboxCount 24 - lastPos 24 - 32) 0 ++ (unSub (loadBlk D 16)).toList) = R
    obtain ⟨ks, d, l, e1, e2⟩ := sched_last (keySched192_dep true (loadBlk (List.replicate 24 0) 0) (loadBlk (List.replicate 24 0) 16)) (sboxCount 24) R (lastPos 24) (by decide)
    obtain ⟨_, _, _, _, _, e3, _, _, _, _, hk, _⟩ := keySched192_lin (kgenShare192_lin (t := List.replicate (sboxCount 24) 0) (t' := List.replicate (sboxCount 24) 0) rfl true)
      (loadBlk (List.replicate 24 0) 0) (loadBlk (List.replicate 24 0) 0) (loadBlk (List.replicate 24 0) 16) (loadBlk (List.replicate 24 0) 16) [] [] rfl
    rw [e1] at e3
    rw [← Option.some.inj (congrArg Prod.fst e3)] at hk
    obtain ⟨d1, l1, f1⟩ := rounds_out true (List.replicate (sboxCount 24) 0) Blk.imc3 ks 11 hk (partyPt true pt 0) d
    obtain ⟨d2, l2, f2⟩ := rounds_out true (List.replicate (lastPos 24) 0 ++ R) Blk.imc3 ks 11 hk (partyPt true pt 0) d
    obtain ⟨d3, l3, f3⟩ := rounds_out true (List.replicate (sboxCount 24) 0) Blk.imc3 ks 11 hk (partyPt true pt 16) (d ++ d1)
    obtain ⟨d4, l4, f4⟩ := rounds_out true (List.replicate (lastPos 24) 0 ++ R) Blk.imc3 ks 11 hk (partyPt true pt 16) (d ++ d2)
    rw [AesM.bind_run e1, AesM.bind_run e2, AesM.bind_run f1, AesM.bind_run f2, AesM.bind_run f3, AesM.bind_run f4, AesM.pure_run, AesM.pure_run]
    dsimp only [Option.getD_some]
    have p1 : loadBlk (List.replicate (lastPos 24) 0 ++ R) (d.length + 16 * 11) = unSub (loadBlk D 0) := by
      rw [loadBlk_append _ _ _ (by rw [l, List.length_replicate]; rfl), ← hT, loadBlk_toList]
    have p2 : loadBlk (List.replicate (lastPos 24) 0 ++ R) ((d ++ d2).length + 16 * 11) = unSub (loadBlk D 16) := by
      rw [← hT, ← List.append_assoc, ← List.append_assoc, loadBlk_append _ _ _ (by rw [List.length_append, l, l2, List.length_append, List.length_append, List.length_replicate, List.length_replicate, Vector.length_toList]; rfl)]
      have := loadBlk_toList (unSub (loadBlk D 16)) []
      rwa [List.append_nil] at this
    rw [p1, p2, loadBlk_zero, loadBlk_zero, correct, correct, Blk.xor_toList (loadBlk D 0), Blk.xor_toList (loadBlk D 16), ← xorBytes_append (by simp), loadBlk_list2 D hD]
  · simp only [show ¬ (32 = 16) by omega, show ¬ (32 = 24) by omega, if_false]
    have hD : D.length = 32 := hD
    generalize hT : (unSub (loadBlk D 0)).toList ++ (List.replicate (sboxCount 32 - lastPos 32 - 32) 0 ++ (unSub (loadBlk D 16)).toList) = R
    obtain ⟨ks, d, l, e1, e2⟩ := sched_last (keySched256_dep true (loadBlk (List.replicate 32 0) 0) (loadBlk (List.replicate 32 0) 16)) (sboxCount 32) R (lastPos 32) (by decide)
    obtain ⟨_, _, _, _, _, e3, _, _, _, _, hk, _⟩ := keySched256_lin (kgenShare_lin (t := List.replicate (sboxCount 32) 0) (t' := List.replicate (sboxCount 32) 0) rfl true) (kgenShare256b_lin (t := List.replicate (sboxCount 32) 0) (t' := List.replicate (sboxCount 32) 0) rfl true)
      (loadBlk (List.replicate 32 0) 0) (loadBlk (List.replicate 32 0) 0) (loadBlk (List.replicate 32 0) 16) (loadBlk (List.replicate 32 0) 16) [] [] rfl
    rw [e1] at e3
    rw [← Option.some.inj (congrArg Prod.fst e3)] at hk
    obtain ⟨d1, l1, f1⟩ := rounds_out true (List.replicate (sboxCount 32) 0) Blk.imc3 ks 13 hk (partyPt true pt 0) d
    obtain ⟨d2, l2, f2⟩ := rounds_out true (List.replicate (lastPos 32) 0 ++ R) Blk.imc3 ks 13 hk (partyPt true pt 0) d
    obtain ⟨d3, l3, f3⟩ := rounds_out true (List.replicate (sboxCount 32) 0) Blk.imc3 ks 13 hk (partyPt true pt 16) (d ++ d1)
    obtain ⟨d4, l4, f4⟩ := rounds_out true (List.replicate (lastPos 32) 0 ++ R) Blk.imc3 ks 13 hk (partyPt true pt 16) (d ++ d2)
    rw [AesM.bind_run e1, AesM.bind_run e2, AesM.bind_run f1, AesM.bind_run f2, AesM.bind_run f3, AesM.bind_run f4, AesM.pure_run, AesM.pure_run]
    dsimp only [Option.getD_some]
    have p1 : loadBlk (List.replicate (lastPos 32) 0 ++ R) (d.length + 16 * 13) = unSub (loadBlk D 0) := by
      rw [loadBlk_append _ _ _ (by rw [l, List.length_replicate]; rfl), ← hT, loadBlk_toList]
    have p2 : loadBlk (List.replicate (lastPos 32) 0 ++ R) ((d ++ d2).length + 16 * 13) = unSub (loadBlk D 16) := by
      rw [← hT, ← List.append_assoc, ← List.append_assoc, loadBlk_append _ _ _ (by rw [List.length_append, l, l2, List.length_append, List.length_append, List.length_replicate, List.length_replicate, Vector.length_toList]; rfl)]
      have := loadBlk_toList (unSub (loadBlk D 16)) []
      rwa [List.append_nil] at this
    rw [p1, p2, loadBlk_zero, loadBlk_zero, correct, correct, Blk.xor_toList (loadBlk D 0), Blk.xor_toList (loadBlk D 16), ← xorBytes_append (by simp), loadBlk_list2 D hD]

end Banquet
