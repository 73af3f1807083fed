import Verif.Proofs.AesRounds

/-! The three AES variants as a whole, and FIPS 197. -/

namespace Banquet

open Spec.Aes

/-! ## Multiplication -/

theorem aesMulStep_eq (r a : Byte) (b : BitVec 32) :
    aesMulStep (r, a.setWidth 32, b) = (if b.getLsbD 0 then r ^^^ a else r, (xtime a).setWidth 32, b >>> 1) := by
  have h : ∀ a : Byte, ((a.setWidth 32 : BitVec 32) <<< 1) ^^^ ((0x11b : BitVec 32) &&& (-((((a.setWidth 32 : BitVec 32) >>> 7).setWidth 16) &&& 1) : BitVec 16).setWidth 32) = (xtime a).setWidth 32 := by
    have : ∀ n : Fin 256, (((BitVec.ofFin n : Byte).setWidth 32 : BitVec 32) <<< 1) ^^^ ((0x11b : BitVec 32) &&& (-(((((BitVec.ofFin n : Byte).setWidth 32 : BitVec 32) >>> 7).setWidth 16) &&& 1) : BitVec 16).setWidth 32)
        = (xtime (BitVec.ofFin n)).setWidth 32 := by decide +kernel
    intro ⟨n⟩
    exact this n
  unfold aesMulStep
  simp only
  rw [h, mask8]
  have e : (a.setWidth 32).setWidth 8 = a := by simp
  rw [e]
  split
  · have : a &&& 0xff = a := by
      have : (0xff : Byte) = BitVec.allOnes 8 := by decide
      rw [this, BitVec.and_allOnes]
    rw [this]
  · have : a &&& 0 = 0 := BitVec.and_zero
    rw [this, xor_zero']

theorem aesMul_eq (a b : Byte) : aesMul a b = Spec.Aes.mul a b := by
  have h : ∀ n, n ≤ 8 → (List.range n).foldl (fun st _ => aesMulStep st) ((0 : Byte), a.setWidth 32, b.setWidth 32) =
      ((List.range n).foldl (fun acc i => if b.getLsbD i then acc ^^^ (xtime^[i]) a else acc) 0, ((xtime^[n]) a).setWidth 32, (b.setWidth 32) >>> n) := by
    intro n hn
    induction n with
    | zero => simp
    | succ n ih =>
      rw [List.range_succ, List.foldl_append, List.foldl_append, ih (by omega), List.foldl_cons, List.foldl_nil, List.foldl_cons, List.foldl_nil, aesMulStep_eq, Function.iterate_succ_apply']
      have e : ((b.setWidth 32) >>> n).getLsbD 0 = b.getLsbD n := by
        simp
        intro h
        omega
      rw [e, ← BitVec.shiftRight_add]
  unfold aesMul Spec.Aes.mul
  rw [h 8 (le_refl _)]

/-! ## Parameters -/

/-- The number of blocks for a key size. -/
def nBlocks (keySize : Nat) : Nat := if keySize = 16 then 1 else 2

/-- The S-box inputs in the order of the code. -/
def codeInputs (nk blocks : Nat) (key pt : Bytes) : Bytes :=
  keyInputs nk key (4 * (nk + 7)) ++ (List.range blocks).flatMap fun i => roundIns (nk + 6) (keyExpansion nk key (4 * (nk + 7))) (toState (slice pt (16 * i) 16))

theorem rowOrder_perm (m : Blk) : m.rowOrder.toList.Perm m.toList := by
  have hb : ∀ m : Blk, m.toList = (List.range 16).map (fun i => m.getD i 0) := by
    intro w
    apply List.ext_getElem
    · simp
    · intro i h1 h2
      have : i < 16 := by simpa using h1
      simp [Vector.getD, this]
  have h2 : m.rowOrder.toList = ((List.range 16).map (fun n => n % 4 * 4 + n / 4)).map (fun i => m.getD i 0) := by
    rw [hb, List.map_map]
    apply List.map_congr_left
    intro i hi
    have : i < 16 := List.mem_range.1 hi
    have h3 : i % 4 * 4 + i / 4 < 16 := by omega
    simp [Vector.getD, Blk.rowOrder, this, h3]
  rw [h2, hb m]
  apply List.Perm.map
  decide

theorem roundIns_perm (nr : Nat) (w : List Word) (pt : Bytes) : (roundIns nr w (toState pt)).Perm (cipherInputs nr w pt) := by
  unfold roundIns cipherInputs
  refine List.Perm.flatMap_left _ fun i _ => ?_
  rw [← ofState_toList]
  exact rowOrder_perm _

theorem codeInputs_perm (nk blocks : Nat) (key pt : Bytes) : (codeInputs nk blocks key pt).Perm (sboxInputs nk blocks key pt) := by
  unfold codeInputs sboxInputs
  exact List.Perm.append_left _ (List.Perm.flatMap_left _ fun i _ => roundIns_perm _ _ _)

theorem ofState_cipher (nr : Nat) (w : List Word) (pt : Bytes) : (ofState (lastState nr w (toState pt))).toList = cipher nr w pt := by
  rw [ofState_toList]
  rfl

/-! ## The plain computation -/

/-- The computation of `aesPlain`, with one key schedule. -/
def plainM (keySize : Nat) (key pt : Bytes) : AesM Unit Bytes :=
  if keySize = 16 then do
    let ks ← keySched128 kgenPlain (loadBlk key 0)
    let m ← rounds subPlain Blk.mixColumns ks (loadBlk pt 0)
    Pure.pure m.toList
  else if keySize = 24 then do
    let ks ← keySched192 kgenPlain192 (loadBlk key 0) (loadBlk key 16)
    let m ← rounds subPlain Blk.mixColumns ks (loadBlk pt 0)
    let n ← rounds subPlain Blk.mixColumns ks (loadBlk pt 16)
    Pure.pure (m.toList ++ n.toList)
  else do
    let ks ← keySched256 kgenPlain (fun m => kgenPlain m 0) (loadBlk key 0) (loadBlk key 16)
    let m ← rounds subPlain Blk.mixColumns ks (loadBlk pt 0)
    let n ← rounds subPlain Blk.mixColumns ks (loadBlk pt 16)
    Pure.pure (m.toList ++ n.toList)

/-- The computation of `aesSave`. -/
def saveM (keySize : Nat) (key pt : Bytes) : AesM Saved Bytes :=
  if keySize = 16 then do
    let ks ← keySched128 kgenSave (loadBlk key 0)
    let m ← rounds subSave Blk.mixColumns ks (loadBlk pt 0)
    Pure.pure m.toList
  else if keySize = 24 then do
    let ks ← keySched192 kgenSave192 (loadBlk key 0) (loadBlk key 16)
    let m ← rounds subSave Blk.mixColumns ks (loadBlk pt 0)
    let n ← rounds subSave Blk.mixColumns ks (loadBlk pt 16)
    Pure.pure (m.toList ++ n.toList)
  else do
    let ks ← keySched256 kgenSave kgenSave256b (loadBlk key 0) (loadBlk key 16)
    let m ← rounds subSave Blk.mixColumns ks (loadBlk pt 0)
    let n ← rounds subSave Blk.mixColumns ks (loadBlk pt 16)
    Pure.pure (m.toList ++ n.toList)

theorem aesSave_eq (keySize : Nat) (key pt : Bytes) : aesSave keySize key pt = saveM keySize key pt ([], []) := by
  unfold aesSave saveM
  split
  · rfl
  split
  · rfl
  · rfl

/-- Both blocks. -/
def both (x y : Option Bytes) : Option Bytes := x.bind fun a => y.map fun b => a ++ b

theorem two_blocks (ks : AesM Unit (List Blk)) (r : List Blk → Blk → AesM Unit Blk) (p q : Blk) :
    both (((do let k ← ks; r k p) ()).1.map Vector.toList) (((do let k ← ks; r k q) ()).1.map Vector.toList) = ((do let k ← ks; let m ← r k p; let n ← r k q; Pure.pure (m.toList ++ n.toList) : AesM Unit Bytes) ()).1 := by
  rcases hk : ks () with ⟨_ | k, u⟩
  · rw [AesM.bind_none hk, AesM.bind_none hk, AesM.bind_none hk]
    rfl
  · rw [AesM.bind_run hk, AesM.bind_run hk, AesM.bind_run hk]
    rcases hp : r k p u with ⟨_ | m, u'⟩
    · rw [AesM.bind_none hp]
      rfl
    · rw [AesM.bind_run hp]
      rcases hq : r k q u with ⟨_ | n, u''⟩
      · rw [AesM.bind_none (s' := u'') hq]
        rfl
      · rw [AesM.bind_run (s' := u'') hq]
        rfl

theorem loadBlk_take (pt : Bytes) : loadBlk (pt.take 16) 0 = loadBlk pt 0 := by
  apply Vector.ext
  intro i hi
  unfold loadBlk
  simp only [Vector.getElem_ofFn, List.getD_eq_getElem?_getD, List.getElem?_take]
  rw [if_pos (by omega)]

theorem loadBlk_drop (pt : Bytes) : loadBlk (pt.drop 16) 0 = loadBlk pt 16 := by
  apply Vector.ext
  intro i hi
  unfold loadBlk
  simp only [Vector.getElem_ofFn, List.getD_eq_getElem?_getD, List.getElem?_drop]
  rw [Nat.zero_add]

theorem aesPlain_both (keySize : Nat) (key pt : Bytes) (h : keySize ≠ 16) : aesPlain keySize key pt =
    if keySize = 24 then both (aes192Block key (pt.take 16)) (aes192Block key (pt.drop 16)) else both (aes256Block key (pt.take 16)) (aes256Block key (pt.drop 16)) := by
  unfold aesPlain
  rw [if_neg h]
  by_cases h24 : keySize = 24
  · simp only [h24, if_true]
    generalize aes192Block key (pt.take 16) = x
    generalize aes192Block key (pt.drop 16) = y
    cases x <;> cases y <;> rfl
  · simp only [h24, if_false]
    generalize aes256Block key (pt.take 16) = x
    generalize aes256Block key (pt.drop 16) = y
    cases x <;> cases y <;> rfl

theorem aes192_both (key pt : Bytes) : both (aes192Block key (pt.take 16)) (aes192Block key (pt.drop 16)) = (plainM 24 key pt ()).1 := by
  have h := two_blocks (keySched192 kgenPlain192 (loadBlk key 0) (loadBlk key 16)) (fun k p => rounds subPlain Blk.mixColumns k p) (loadBlk pt 0) (loadBlk pt 16)
  unfold aes192Block plainM
  rw [loadBlk_take, loadBlk_drop, h, if_neg (by omega), if_pos rfl]

theorem aes256_both (key pt : Bytes) (n : Nat) (h1 : n ≠ 16) (h2 : n ≠ 24) : both (aes256Block key (pt.take 16)) (aes256Block key (pt.drop 16)) = (plainM n key pt ()).1 := by
  have h := two_blocks (keySched256 kgenPlain (fun m => kgenPlain m 0) (loadBlk key 0) (loadBlk key 16)) (fun k p => rounds subPlain Blk.mixColumns k p) (loadBlk pt 0) (loadBlk pt 16)
  unfold aes256Block plainM
  rw [loadBlk_take, loadBlk_drop, h, if_neg h1, if_neg h2]

theorem aesPlain_eq (keySize : Nat) (key pt : Bytes) : aesPlain keySize key pt = (plainM keySize key pt ()).1 := by
  by_cases h16 : keySize = 16
  · subst h16
    unfold aesPlain plainM
    rw [if_pos rfl, if_pos rfl]
    unfold aes128Block
    rcases hk : keySched128 kgenPlain (loadBlk key 0) () with ⟨_ | k, u⟩
    · rw [AesM.bind_none hk, AesM.bind_none hk]; rfl
    · rw [AesM.bind_run hk, AesM.bind_run hk]
      rcases hp : rounds subPlain Blk.mixColumns k (loadBlk pt 0) u with ⟨_ | m, u'⟩
      · rw [AesM.bind_none hp]; rfl
      · rw [AesM.bind_run hp]; rfl
  · rw [aesPlain_both _ _ _ h16]
    by_cases h24 : keySize = 24
    · subst h24
      rw [if_pos rfl, aes192_both]
    · rw [if_neg h24, aes256_both _ _ _ h16 h24]

/-! ## All three computations -/


theorem two_tr {key pt : Bytes} {nk n : Nat} {w : List Word} (hw : keyExpansion nk key (4 * (n + 2)) = w) :
    Tr (roundIns (n + 1) w (toState (slice pt 0 16)) ++ roundIns (n + 1) w (toState (slice pt 16 16))) (· = cipher (n + 1) w (slice pt 0 16) ++ cipher (n + 1) w (slice pt 16 16))
      (do let m ← rounds subPlain Blk.mixColumns ((List.range (n + 2)).map (roundKey nk key)) (loadBlk pt 0)
          let n ← rounds subPlain Blk.mixColumns ((List.range (n + 2)).map (roundKey nk key)) (loadBlk pt 16)
          Pure.pure (m.toList ++ n.toList))
      (do let m ← rounds subSave Blk.mixColumns ((List.range (n + 2)).map (roundKey nk key)) (loadBlk pt 0)
          let n ← rounds subSave Blk.mixColumns ((List.range (n + 2)).map (roundKey nk key)) (loadBlk pt 16)
          Pure.pure (m.toList ++ n.toList))
      (fun T => do
          let m ← rounds (subShare true T) Blk.imc3 ((List.range (n + 2)).map (roundKey nk key)) (loadBlk pt 0)
          let n ← rounds (subShare true T) Blk.imc3 ((List.range (n + 2)).map (roundKey nk key)) (loadBlk pt 16)
          Pure.pure (m.toList ++ n.toList)) := by
  rw [loadBlk_toState pt 0, loadBlk_toState pt 16]
  refine Tr.bind (rounds_tr nk key n w hw _) ?_ (fun T c => (rounds_mono _ _ _ _).bind fun _ => Mono.pure _) (fun T => rounds_mono _ _ _ _)
  rintro _ _ _ rfl rfl rfl
  refine Tr.cast (Tr.bind (i2 := []) (rounds_tr nk key n w hw _) ?_ (fun T c => Mono.pure _) (fun T => rounds_mono _ _ _ _)) (List.append_nil _)
  rintro _ _ _ rfl rfl rfl
  rw [ofState_cipher, ofState_cipher]
  exact Tr.pure rfl rfl rfl

theorem keySched128_mono (T : Bytes) (f : Bool) (a : Blk) : Mono (keySched128 (kgenShare f T) a) :=
  (Mono.foldlM _ (fun _ _ => (kgenShare_mono _ _ _ _).bind fun _ => Mono.pure _) _).bind fun _ => Mono.pure _

theorem keySched192_mono (T : Bytes) (f : Bool) (a b : Blk) : Mono (keySched192 (kgenShare192 f T) a b) := by
  rw [keySched192_fold]
  exact (Mono.foldlM _ (fun _ _ => (kgenShare192_mono _ _ _ _).bind fun _ => Mono.pure _) _).bind fun _ => Mono.pure _

theorem keySched256_mono (T : Bytes) (f : Bool) (a b : Blk) : Mono (keySched256 (kgenShare f T) (kgenShare256b f T) a b) := by
  rw [keySched256_fold]
  exact (Mono.foldlM _ (fun _ _ => (kgenShare_mono _ _ _ _).bind fun _ => (kgenShare256b_mono _ _ _).bind fun _ => Mono.pure _) _).bind fun _ =>
    (kgenShare_mono _ _ _ _).bind fun _ => Mono.pure _

theorem aes_tr (keySize : Nat) (h : keySize = 16 ∨ keySize = 24 ∨ keySize = 32) (key pt : Bytes) :
    Tr (codeInputs (keySize / 4) (nBlocks keySize) key pt) (· = encrypt (keySize / 4) (nBlocks keySize) key pt) (plainM keySize key pt) (saveM keySize key pt) (fun T => partyM keySize true key T pt) := by
  rcases h with rfl | rfl | rfl
  · have hI : codeInputs (16 / 4) (nBlocks 16) key pt = keyInputs 4 key 44 ++ roundIns 10 (keyExpansion 4 key 44) (toState (slice pt 0 16)) := by
      unfold codeInputs
      simp [nBlocks, List.range_succ]
    have hE : encrypt (16 / 4) (nBlocks 16) key pt = cipher 10 (keyExpansion 4 key 44) (slice pt 0 16) := by
      unfold encrypt encryptBlock
      simp [nBlocks, List.range_succ]
    rw [hI, hE]
    refine Tr.bind (keySched128_tr key) ?_ (fun T c => (rounds_mono _ _ _ _).bind fun _ => Mono.pure _) (fun T => keySched128_mono _ _ _)
    rintro _ _ _ rfl rfl rfl
    simp only [partyPt, if_true, loadBlk_toState pt 0]
    refine Tr.cast (Tr.bind (i2 := []) (rounds_tr 4 key 9 _ rfl _) ?_ (fun T c => Mono.pure _) (fun T => rounds_mono _ _ _ _)) (List.append_nil _)
    rintro _ _ _ rfl rfl rfl
    rw [ofState_cipher]
    exact Tr.pure rfl rfl rfl
  · have hI : codeInputs (24 / 4) (nBlocks 24) key pt = keyInputs 6 key 52 ++ (roundIns 12 (keyExpansion 6 key 52) (toState (slice pt 0 16)) ++ roundIns 12 (keyExpansion 6 key 52) (toState (slice pt 16 16))) := by
      unfold codeInputs
      simp [nBlocks, List.range_succ]
    have hE : encrypt (24 / 4) (nBlocks 24) key pt = cipher 12 (keyExpansion 6 key 52) (slice pt 0 16) ++ cipher 12 (keyExpansion 6 key 52) (slice pt 16 16) := by
      unfold encrypt encryptBlock
      simp [nBlocks, List.range_succ]
    rw [hI, hE]
    refine Tr.bind (keySched192_tr key) ?_ (fun T c => (rounds_mono _ _ _ _).bind fun _ => (rounds_mono _ _ _ _).bind fun _ => Mono.pure _) (fun T => keySched192_mono _ _ _ _)
    rintro _ _ _ rfl rfl rfl
    exact two_tr (n := 11) rfl
  · have hI : codeInputs (32 / 4) (nBlocks 32) key pt = keyInputs 8 key 60 ++ (roundIns 14 (keyExpansion 8 key 60) (toState (slice pt 0 16)) ++ roundIns 14 (keyExpansion 8 key 60) (toState (slice pt 16 16))) := by
      unfold codeInputs
      simp [nBlocks, List.range_succ]
    have hE : encrypt (32 / 4) (nBlocks 32) key pt = cipher 14 (keyExpansion 8 key 60) (slice pt 0 16) ++ cipher 14 (keyExpansion 8 key 60) (slice pt 16 16) := by
      unfold encrypt encryptBlock
      simp [nBlocks, List.range_succ]
    rw [hI, hE]
    refine Tr.bind (keySched256_tr key) ?_ (fun T c => (rounds_mono _ _ _ _).bind fun _ => (rounds_mono _ _ _ _).bind fun _ => Mono.pure _) (fun T => keySched256_mono _ _ _ _)
    rintro _ _ _ rfl rfl rfl
    exact two_tr (n := 13) rfl

end Banquet
