import Verif.Proofs.AesTrace
import Verif.Proofs.AesSbox

/-! The computations of aes.cpp and FIPS 197. -/

namespace Banquet

open Spec.Aes

/-! ## Key expansion by words -/

/-- Word `i` of the key expansion. -/
def W (nk : Nat) (key : Bytes) (i : Nat) : Word := (keyExpansion nk key (i + 1)).getD i (Vector.replicate 4 0)

theorem length_keyExpansion (nk : Nat) (key : Bytes) (n : Nat) : (keyExpansion nk key n).length = n := by
  induction n with
  | zero => rfl
  | succ n ih =>
    unfold keyExpansion
    simp only [List.length_append, List.length_singleton, ih]

theorem keyExpansion_eq (nk : Nat) (key : Bytes) (n : Nat) : keyExpansion nk key n = (List.range n).map (W nk key) := by
  induction n with
  | zero => rfl
  | succ n ih =>
    have h : keyExpansion nk key (n + 1) = keyExpansion nk key n ++ [W nk key n] := by
      have e : keyExpansion nk key (n + 1) = keyExpansion nk key n ++ [if n < nk then keyWord key n else nextWord nk (keyExpansion nk key n)] := rfl
      have : W nk key n = if n < nk then keyWord key n else nextWord nk (keyExpansion nk key n) := by
        unfold W
        rw [e, List.getD_eq_getElem?_getD, List.getElem?_append_right (by rw [length_keyExpansion]), length_keyExpansion, Nat.sub_self]
        rfl
      rw [e, this]
    rw [h, ih, List.range_succ, List.map_append]
    rfl

theorem getD_keyExpansion (nk : Nat) (key : Bytes) (n i : Nat) (h : i < n) : (keyExpansion nk key n).getD i (Vector.replicate 4 0) = W nk key i := by
  rw [keyExpansion_eq, List.getD_eq_getElem?_getD, List.getElem?_map, List.getElem?_range h]
  rfl

theorem W_succ (nk : Nat) (key : Bytes) (n : Nat) : W nk key n = if n < nk then keyWord key n else nextWord nk (keyExpansion nk key n) := by
  have e : keyExpansion nk key (n + 1) = keyExpansion nk key n ++ [if n < nk then keyWord key n else nextWord nk (keyExpansion nk key n)] := rfl
  unfold W
  rw [e, List.getD_eq_getElem?_getD, List.getElem?_append_right (by rw [length_keyExpansion]), length_keyExpansion, Nat.sub_self]
  rfl

theorem W_key (nk : Nat) (key : Bytes) (i : Nat) (h : i < nk) : W nk key i = keyWord key i := by
  rw [W_succ, if_pos h]

theorem W_rec (nk : Nat) (key : Bytes) (i : Nat) (hn : 0 < nk) (h : nk ≤ i) : W nk key i = (W nk key (i - nk)).xor
    (if i % nk = 0 then (subWord sbox (rotWord (W nk key (i - 1)))).xor (rcon (i / nk))
     else if 6 < nk ∧ i % nk = 4 then subWord sbox (W nk key (i - 1)) else W nk key (i - 1)) := by
  rw [W_succ, if_neg (by omega)]
  unfold nextWord
  simp only [length_keyExpansion]
  rw [getD_keyExpansion _ _ _ _ (by omega), getD_keyExpansion _ _ _ _ (by omega)]

/-- S-box inputs for word `i`. -/
def wIns (nk : Nat) (key : Bytes) (i : Nat) : Bytes :=
  if i < nk then [] else if i % nk = 0 then (rotWord (W nk key (i - 1))).toList else if 6 < nk ∧ i % nk = 4 then (W nk key (i - 1)).toList else []

theorem keyInputs_eq (nk : Nat) (hn : 0 < nk) (key : Bytes) (n : Nat) : keyInputs nk key n = (List.range n).flatMap (wIns nk key) := by
  induction n with
  | zero => rfl
  | succ n ih =>
    have e : keyInputs nk key (n + 1) = keyInputs nk key n ++ (if n < nk then [] else nextInputs nk (keyExpansion nk key n)) := rfl
    rw [e, ih, List.range_succ, List.flatMap_append, List.flatMap_singleton]
    congr 1
    unfold wIns
    by_cases h : n < nk
    · rw [if_pos h, if_pos h]
    · rw [if_neg h, if_neg h]
      unfold nextInputs
      simp only [length_keyExpansion]
      rw [getD_keyExpansion _ _ _ _ (by omega)]

/-! ## Registers as words -/

/-- Register of four words. -/
def Blk.ofWords (a b c d : Word) : Blk := Vector.ofFn fun i => if i.val < 4 then a[i.val % 4] else if i.val < 8 then b[i.val % 4] else if i.val < 12 then c[i.val % 4] else d[i.val % 4]

/-- The register of words `4j … 4j+3` of the key expansion: round key `j`. -/
def roundKey (nk : Nat) (key : Bytes) (j : Nat) : Blk := Blk.ofWords (W nk key (4 * j)) (W nk key (4 * j + 1)) (W nk key (4 * j + 2)) (W nk key (4 * j + 3))

theorem Word.getElem_xor (a b : Word) (i : Nat) (h : i < 4) : (a.xor b)[i] = a[i] ^^^ b[i] := by
  unfold Word.xor
  rw [Vector.getElem_ofFn]
  rfl

/-- The value used by the key schedules. -/
theorem SubWordOf.word {k : Fin 4} {b : Word} {rc : Byte} {g : Blk} (h : SubWordOf k b rc g) : ∀ r (_ : r < 4), g[4 * k.val + r]'(by omega) = sbox b[r] ^^^ (if r = 0 then rc else 0) := by
  intro r hr
  rw [h r hr, hwSbox_eq]

/-- The word added at the start of a group. -/
def gWord (b : Word) (rc : Byte) : Word := Vector.ofFn fun r => sbox b[r] ^^^ (if r.val = 0 then rc else 0)

theorem getElem_ofWords (a b c d : Word) (i : Nat) (h : i < 16) :
    (Blk.ofWords a b c d)[i] = if i < 4 then a[i % 4] else if i < 8 then b[i % 4] else if i < 12 then c[i % 4] else d[i % 4] := by
  unfold Blk.ofWords
  rw [Vector.getElem_ofFn]

theorem SubWordOf.bcast {k : Fin 4} {b : Word} {rc : Byte} {g : Blk} (h : SubWordOf k b rc g) : g.bcast k = Blk.ofWords (gWord b rc) (gWord b rc) (gWord b rc) (gWord b rc) := by
  apply Vector.ext
  intro i hi
  rw [getElem_ofWords]
  unfold Blk.bcast gWord
  simp only [Vector.getElem_ofFn]
  rw [h.word (i % 4) (by omega), ite_self, ite_self, ite_self]
  rfl

theorem ofWords_xor (a b c d a' b' c' d' : Word) : (Blk.ofWords a b c d).xor (Blk.ofWords a' b' c' d') = Blk.ofWords (a.xor a') (b.xor b') (c.xor c') (d.xor d') := by
  apply Vector.ext
  intro i hi
  rw [Blk.getElem_xor, getElem_ofWords, getElem_ofWords, getElem_ofWords]
  split
  · rw [Word.getElem_xor]
  split
  · rw [Word.getElem_xor]
  split
  · rw [Word.getElem_xor]
  · rw [Word.getElem_xor]

/-- The zero word. -/
def zeroW : Word := Vector.replicate 4 0

theorem ofWords_slli4 (a b c d : Word) : (Blk.ofWords a b c d).slli4 = Blk.ofWords zeroW a b c := by
  apply Vector.ext
  intro i hi
  unfold Blk.slli4
  rw [Vector.getElem_ofFn, getElem_ofWords]
  dsimp only
  by_cases h : i < 4
  · rw [dif_pos h, if_pos h]
    unfold zeroW
    rw [Vector.getElem_replicate]
  · rw [dif_neg h, if_neg h, getElem_ofWords]
    have e : (i - 4) % 4 = i % 4 := by omega
    simp only [e]
    by_cases h2 : i < 8
    · rw [if_pos (by omega), if_pos h2]
    rw [if_neg (by omega), if_neg h2]
    by_cases h3 : i < 12
    · rw [if_pos (by omega), if_pos h3]
    rw [if_neg (by omega), if_neg h3, if_pos (by omega)]

theorem ofWords_bcast3 (a b c d : Word) : (Blk.ofWords a b c d).bcast 3 = Blk.ofWords d d d d := by
  apply Vector.ext
  intro i hi
  unfold Blk.bcast
  rw [Vector.getElem_ofFn]
  dsimp only
  rw [getElem_ofWords, getElem_ofWords, ite_self, ite_self, ite_self, if_neg (by have : (3 : Fin 4).val = 3 := rfl; omega), if_neg (by have : (3 : Fin 4).val = 3 := rfl; omega), if_neg (by have : (3 : Fin 4).val = 3 := rfl; omega)]
  have e : (4 * (3 : Fin 4).val + i % 4) % 4 = i % 4 := by omega
  simp only [e]

theorem ofWords_shufflePd0 (a b c d a' b' c' d' : Word) : (Blk.ofWords a b c d).shufflePd0 (Blk.ofWords a' b' c' d') = Blk.ofWords a b a' b' := by
  apply Vector.ext
  intro i hi
  unfold Blk.shufflePd0
  rw [Vector.getElem_ofFn, getElem_ofWords]
  dsimp only
  by_cases h : i < 8
  · rw [dif_pos h, getElem_ofWords, if_pos h, if_pos h]
  · rw [dif_neg h, if_neg (by omega), if_neg h, getElem_ofWords]
    have e : (i - 8) % 4 = i % 4 := by omega
    simp only [e]
    by_cases h3 : i < 12
    · rw [if_pos (by omega), if_pos h3]
    · rw [if_neg (by omega), if_neg h3, if_pos (by omega)]

theorem ofWords_shufflePd1 (a b c d a' b' c' d' : Word) : (Blk.ofWords a b c d).shufflePd1 (Blk.ofWords a' b' c' d') = Blk.ofWords c d a' b' := by
  apply Vector.ext
  intro i hi
  unfold Blk.shufflePd1
  rw [Vector.getElem_ofFn, getElem_ofWords]
  dsimp only
  by_cases h : i < 8
  · rw [dif_pos h, getElem_ofWords]
    have e : (i + 8) % 4 = i % 4 := by omega
    simp only [e]
    rw [if_neg (by omega), if_neg (by omega)]
    by_cases h3 : i < 4
    · rw [if_pos (by omega), if_pos h3]
    · rw [if_neg (by omega), if_neg h3, if_pos h]
  · rw [dif_neg h, if_neg (by omega), if_neg h, getElem_ofWords]
    have e : (i - 8) % 4 = i % 4 := by omega
    simp only [e]
    by_cases h3 : i < 12
    · rw [if_pos (by omega), if_pos h3]
    · rw [if_neg (by omega), if_neg h3, if_pos (by omega)]

theorem word_ext {a b : Word} (h : ∀ r (_ : r < 4), a[r] = b[r]) : a = b := Vector.ext h

instance : Std.Associative Word.xor := ⟨fun a b c => by
  apply word_ext
  intro r hr
  simp only [Word.getElem_xor, BitVec.xor_assoc]⟩

instance : Std.Commutative Word.xor := ⟨fun a b => by
  apply word_ext
  intro r hr
  simp only [Word.getElem_xor]
  exact BitVec.xor_comm _ _⟩

theorem xor_zeroW (a : Word) : a.xor zeroW = a := by
  apply word_ext
  intro r hr
  rw [Word.getElem_xor]
  unfold zeroW
  rw [Vector.getElem_replicate]
  exact BitVec.xor_zero

theorem xor_xor_self (a b : Word) : a.xor (a.xor b) = b := by
  apply word_ext
  intro r hr
  rw [Word.getElem_xor, Word.getElem_xor, ← BitVec.xor_assoc, BitVec.xor_self, BitVec.zero_xor]

theorem ofWords_congr {a b c d a' b' c' d' : Word} (h1 : a = a') (h2 : b = b') (h3 : c = c') (h4 : d = d') : Blk.ofWords a b c d = Blk.ofWords a' b' c' d' := by
  rw [h1, h2, h3, h4]

/-- Running XOR. -/
def run4 (g a b c d : Word) : Blk := Blk.ofWords (a.xor g) (b.xor (a.xor g)) (c.xor (b.xor (a.xor g))) (d.xor (c.xor (b.xor (a.xor g))))

attribute [local irreducible] Word.xor Blk.ofWords

theorem keyExp128_ofWords (a b c d g : Word) (G : Blk) (hG : G.bcast 3 = Blk.ofWords g g g g) : keyExp128 (Blk.ofWords a b c d) G = run4 g a b c d := by
  unfold keyExp128 run4
  dsimp only
  rw [hG]
  simp only [ofWords_slli4, ofWords_xor, xor_zeroW]
  refine ofWords_congr rfl ?_ ?_ ?_ <;> (ac_nf; simp only [xor_xor_self])

theorem key192Assist_ofWords (a b c d g e f u v : Word) : ∃ u' v', ∀ G : Blk, G.bcast 1 = Blk.ofWords g g g g →
    key192Assist (Blk.ofWords a b c d) G (Blk.ofWords e f u v) = (run4 g a b c d, Blk.ofWords (e.xor (d.xor (c.xor (b.xor (a.xor g))))) (f.xor (e.xor (d.xor (c.xor (b.xor (a.xor g)))))) u' v') := by
  refine ⟨(u.xor f).xor ((((d.xor c).xor b).xor a).xor g), (v.xor u).xor ((((d.xor c).xor b).xor a).xor g), fun G hG => ?_⟩
  unfold key192Assist run4
  dsimp only
  rw [hG]
  simp only [ofWords_slli4, ofWords_xor, xor_zeroW, ofWords_bcast3]
  rw [Prod.mk.injEq]
  refine ⟨?_, ?_⟩
  · refine ofWords_congr rfl ?_ ?_ ?_ <;> ac_rfl
  · refine ofWords_congr ?_ ?_ rfl rfl <;> ac_rfl

theorem key256Assist1_ofWords (a b c d g : Word) (G : Blk) (hG : G.bcast 3 = Blk.ofWords g g g g) : key256Assist1 (Blk.ofWords a b c d) G = run4 g a b c d := by
  unfold key256Assist1 run4
  dsimp only
  rw [hG]
  simp only [ofWords_slli4, ofWords_xor, xor_zeroW]
  refine ofWords_congr rfl ?_ ?_ ?_ <;> ac_rfl

theorem key256Assist2_ofWords (a b c d g : Word) (G : Blk) (hG : G.bcast 2 = Blk.ofWords g g g g) : key256Assist2 G (Blk.ofWords a b c d) = run4 g a b c d := by
  unfold key256Assist2 run4
  dsimp only
  rw [hG]
  simp only [ofWords_slli4, ofWords_xor, xor_zeroW]
  refine ofWords_congr rfl ?_ ?_ ?_ <;> ac_rfl

/-! ## Key schedules -/

theorem kgen_word (a b c d : Word) (rc : Byte) : Tr (rotWord d).toList (fun g => g.bcast 3 = Blk.ofWords (gWord (rotWord d) rc) (gWord (rotWord d) rc) (gWord (rotWord d) rc) (gWord (rotWord d) rc))
    (kgenPlain (Blk.ofWords a b c d) rc) (kgenSave (Blk.ofWords a b c d) rc) (fun T => kgenShare true T (Blk.ofWords a b c d) rc) := by
  have h := kgen_tr (Blk.ofWords a b c d) rc
  have e : #v[(Blk.ofWords a b c d)[13], (Blk.ofWords a b c d)[14], (Blk.ofWords a b c d)[15], (Blk.ofWords a b c d)[12]] = rotWord d := by
    apply word_ext
    intro r hr
    unfold rotWord
    rw [Vector.getElem_ofFn]
    interval_cases r <;> simp [getElem_ofWords]
  rw [e] at h
  have e' : [(Blk.ofWords a b c d)[13], (Blk.ofWords a b c d)[14], (Blk.ofWords a b c d)[15], (Blk.ofWords a b c d)[12]] = (rotWord d).toList := by rw [← e]; rfl
  rw [e'] at h
  exact h.imp fun g hg => hg.bcast

theorem kgen192_word (a b c d : Word) (rc : Byte) : Tr (rotWord b).toList (fun g => g.bcast 1 = Blk.ofWords (gWord (rotWord b) rc) (gWord (rotWord b) rc) (gWord (rotWord b) rc) (gWord (rotWord b) rc))
    (kgenPlain192 (Blk.ofWords a b c d) rc) (kgenSave192 (Blk.ofWords a b c d) rc) (fun T => kgenShare192 true T (Blk.ofWords a b c d) rc) := by
  have h := kgen192_tr (Blk.ofWords a b c d) rc
  have e : #v[(Blk.ofWords a b c d)[5], (Blk.ofWords a b c d)[6], (Blk.ofWords a b c d)[7], (Blk.ofWords a b c d)[4]] = rotWord b := by
    apply word_ext
    intro r hr
    unfold rotWord
    rw [Vector.getElem_ofFn]
    interval_cases r <;> simp [getElem_ofWords]
  rw [e] at h
  have e' : [(Blk.ofWords a b c d)[5], (Blk.ofWords a b c d)[6], (Blk.ofWords a b c d)[7], (Blk.ofWords a b c d)[4]] = (rotWord b).toList := by rw [← e]; rfl
  rw [e'] at h
  exact h.imp fun g hg => hg.bcast

theorem kgen256b_word (a b c d : Word) : Tr d.toList (fun g => g.bcast 2 = Blk.ofWords (gWord d 0) (gWord d 0) (gWord d 0) (gWord d 0))
    (kgenPlain (Blk.ofWords a b c d) 0) (kgenSave256b (Blk.ofWords a b c d)) (fun T => kgenShare256b true T (Blk.ofWords a b c d)) := by
  have h := kgen256b_tr (Blk.ofWords a b c d)
  have e : #v[(Blk.ofWords a b c d)[12], (Blk.ofWords a b c d)[13], (Blk.ofWords a b c d)[14], (Blk.ofWords a b c d)[15]] = d := by
    apply word_ext
    intro r hr
    interval_cases r <;> simp [getElem_ofWords]
  rw [e] at h
  have e' : [(Blk.ofWords a b c d)[12], (Blk.ofWords a b c d)[13], (Blk.ofWords a b c d)[14], (Blk.ofWords a b c d)[15]] = d.toList := by
    conv_rhs => rw [← e]
    rfl
  rw [e'] at h
  exact h.imp fun g hg => hg.bcast

theorem kgenShare_mono (f : Bool) (T : Bytes) (m : Blk) (rc : Byte) : Mono (kgenShare f T m rc) := word_mono 3 _ _ _ _
theorem kgenShare192_mono (f : Bool) (T : Bytes) (m : Blk) (rc : Byte) : Mono (kgenShare192 f T m rc) := word_mono 1 _ _ _ _
theorem kgenShare256b_mono (f : Bool) (T : Bytes) (m : Blk) : Mono (kgenShare256b f T m) := word_mono 2 _ _ _ _

/-- Round constant `x^i`. -/
def rc (i : Nat) : Byte := (xtime^[i]) 1

theorem gWord_rot (w : Word) (i : Nat) : gWord (rotWord w) (rc i) = (subWord sbox (rotWord w)).xor (rcon (i + 1)) := by
  apply word_ext
  intro r hr
  rw [Word.getElem_xor]
  unfold gWord subWord rcon rc
  simp only [Vector.getElem_ofFn, Nat.add_sub_cancel]

theorem gWord_zero (w : Word) : gWord w 0 = subWord sbox w := by
  apply word_ext
  intro r hr
  unfold gWord subWord
  simp only [Vector.getElem_ofFn, ite_self]
  exact BitVec.xor_zero

theorem W_rec0 (nk : Nat) (key : Bytes) (i : Nat) (hn : 0 < nk) : W nk key (nk * (i + 1)) = (W nk key (nk * i)).xor (gWord (rotWord (W nk key (nk * i + (nk - 1)))) (rc i)) := by
  rw [W_rec nk key _ hn (by rw [Nat.mul_succ]; omega), if_pos (Nat.mul_mod_right _ _), Nat.mul_div_cancel_left _ hn, gWord_rot, Nat.mul_succ, Nat.add_sub_cancel]
  congr 5
  omega

theorem W_rec1 (nk : Nat) (key : Bytes) (i j : Nat) (hj : 0 < j) (hj' : j < nk) (h4 : ¬(6 < nk ∧ j = 4)) : W nk key (nk * (i + 1) + j) = (W nk key (nk * i + j)).xor (W nk key (nk * (i + 1) + j - 1)) := by
  have e : (nk * (i + 1) + j) % nk = j := by rw [Nat.mul_add_mod, Nat.mod_eq_of_lt hj']
  rw [W_rec nk key _ (by omega) (by rw [Nat.mul_succ]; omega), e, if_neg (by omega), if_neg h4]
  congr 2
  rw [Nat.mul_succ]
  omega

theorem W_rec4 (nk : Nat) (key : Bytes) (i : Nat) (hn : 6 < nk) : W nk key (nk * (i + 1) + 4) = (W nk key (nk * i + 4)).xor (gWord (W nk key (nk * (i + 1) + 3)) 0) := by
  have e : (nk * (i + 1) + 4) % nk = 4 := by rw [Nat.mul_add_mod, Nat.mod_eq_of_lt (by omega)]
  rw [W_rec nk key _ (by omega) (by rw [Nat.mul_succ]; omega), e, if_neg (by omega), if_pos ⟨hn, rfl⟩, gWord_zero]
  congr 2
  rw [Nat.mul_succ]
  omega

theorem loadBlk_words (key : Bytes) (nk : Nat) (j : Nat) (h : 4 * j + 3 < nk) : loadBlk key (16 * j) = roundKey nk key j := by
  apply Vector.ext
  intro i hi
  unfold roundKey
  rw [getElem_ofWords, W_key _ _ _ (by omega), W_key _ _ _ (by omega), W_key _ _ _ (by omega), W_key _ _ _ (by omega)]
  unfold loadBlk keyWord
  simp only [Vector.getElem_ofFn]
  split
  · congr 1; omega
  split
  · congr 1; omega
  split
  · congr 1; omega
  · congr 1; omega

theorem keyInputs128 (key : Bytes) : keyInputs 4 key 44 = (List.range 10).flatMap (fun i => (rotWord (W 4 key (4 * i + 3))).toList) := by
  rw [keyInputs_eq 4 (by omega)]
  have h : ∀ n, (List.range (4 * (n + 1))).flatMap (wIns 4 key) = (List.range n).flatMap (fun i => (rotWord (W 4 key (4 * i + 3))).toList) := by
    intro n
    induction n with
    | zero => simp [List.range_succ, wIns]
    | succ n ih =>
      rw [show 4 * (n + 1 + 1) = 4 * (n + 1) + 1 + 1 + 1 + 1 by omega, List.range_succ, List.range_succ, List.range_succ, List.range_succ, List.range_succ (n := n)]
      simp only [List.flatMap_append, List.flatMap_singleton, ih, List.append_assoc]
      have e0 : wIns 4 key (4 * (n + 1)) = (rotWord (W 4 key (4 * n + 3))).toList := by
        unfold wIns
        rw [if_neg (by omega), if_pos (by omega)]
        rfl
      have e1 : ∀ j, 0 < j → j < 4 → wIns 4 key (4 * (n + 1) + j) = [] := by
        intro j h1 h2
        unfold wIns
        rw [if_neg (by omega), if_neg (by omega), if_neg (by omega)]
      rw [e0, e1 1 (by omega) (by omega), show 4 * (n + 1) + 1 + 1 = 4 * (n + 1) + 2 by omega, e1 2 (by omega) (by omega), show 4 * (n + 1) + 2 + 1 = 4 * (n + 1) + 3 by omega, e1 3 (by omega) (by omega)]
      simp
  exact h 10

theorem keyExp128_round (key : Bytes) (i : Nat) (G : Word) (hG : gWord (rotWord (W 4 key (4 * i + 3))) (rc i) = G) (g : Blk) (hg : g.bcast 3 = Blk.ofWords G G G G) :
    keyExp128 (roundKey 4 key i) g = roundKey 4 key (i + 1) := by
  unfold roundKey
  rw [keyExp128_ofWords _ _ _ _ _ g hg]
  unfold run4
  have h0 := W_rec0 4 key i (by omega)
  rw [show 4 * i + (4 - 1) = 4 * i + 3 from rfl, hG] at h0
  have h1 := W_rec1 4 key i 1 (by omega) (by omega) (by omega)
  have h2 := W_rec1 4 key i 2 (by omega) (by omega) (by omega)
  have h3 := W_rec1 4 key i 3 (by omega) (by omega) (by omega)
  simp only [Nat.add_sub_cancel, show 4 * (i + 1) + 2 - 1 = 4 * (i + 1) + 1 by omega, show 4 * (i + 1) + 3 - 1 = 4 * (i + 1) + 2 by omega] at h0 h1 h2 h3
  rw [h3, h2, h1, h0]

theorem rcons128_eq : rcons128 = (List.range 10).map rc := by decide

theorem keySched128_gen (B : Nat → Blk) (ins : Nat → Bytes) (P : Nat → Blk → Prop)
    (hk : ∀ i < 10, Tr (ins i) (P i) (kgenPlain (B i) (rc i)) (kgenSave (B i) (rc i)) (fun T => kgenShare true T (B i) (rc i)))
    (hs : ∀ i < 10, ∀ g, P i g → keyExp128 (B i) g = B (i + 1)) :
    Tr ((List.range 10).flatMap ins) (· = (List.range 11).map B) (keySched128 kgenPlain (B 0)) (keySched128 kgenSave (B 0)) (fun T => keySched128 (kgenShare true T) (B 0)) := by
  unfold keySched128
  rw [rcons128_eq]
  refine Tr.cast (Tr.bind (i2 := []) (Tr.foldlM 10 rc (fun i => ((List.range (i + 1)).map B, B i)) ins ?_ ?_) ?_ ?_ ?_) (List.append_nil _)
  · intro i hi
    dsimp only
    refine Tr.cast (Tr.bind (i2 := []) (hk i hi) ?_ (fun _ _ => Mono.pure _) (fun _ => kgenShare_mono _ _ _ _)) (List.append_nil _)
    have key' : ∀ g : Blk, P i g → ((List.range (i + 1)).map B ++ [keyExp128 (B i) g], keyExp128 (B i) g) = ((List.range (i + 1 + 1)).map B, B (i + 1)) := by
      intro g hg
      rw [hs i hi g hg, List.range_succ (n := i + 1), List.map_append]
      rfl
    intro a b c ha hb hc
    exact Tr.pure (key' a ha) (key' b hb) (key' c hc)
  · intro T a b
    exact (kgenShare_mono _ _ _ _).bind fun _ => Mono.pure _
  · rintro _ _ _ rfl rfl rfl
    exact Tr.pure rfl rfl rfl
  · intro T c
    exact Mono.pure _
  · intro T
    exact Mono.foldlM _ (fun a b => (kgenShare_mono _ _ _ _).bind fun _ => Mono.pure _) _

theorem keySched128_tr (key : Bytes) : Tr (keyInputs 4 key 44) (· = (List.range 11).map (roundKey 4 key))
    (keySched128 kgenPlain (loadBlk key 0)) (keySched128 kgenSave (loadBlk key 0)) (fun T => keySched128 (kgenShare true T) (loadBlk key 0)) := by
  rw [show loadBlk key 0 = roundKey 4 key 0 from loadBlk_words key 4 0 (by omega), keyInputs128]
  refine keySched128_gen (roundKey 4 key) _ (fun i g => ∃ G, gWord (rotWord (W 4 key (4 * i + 3))) (rc i) = G ∧ g.bcast 3 = Blk.ofWords G G G G) ?_ ?_
  · intro i _
    exact (kgen_word _ _ _ _ (rc i)).imp fun g hg => ⟨_, rfl, hg⟩
  · rintro i _ g ⟨G, hG, hg⟩
    exact keyExp128_round key i G hG g hg

/-- The round keys of the 192-bit schedule from the pairs of registers. -/
def layout192 (A C : Nat → Blk) : List Blk := [A 0, (C 0).shufflePd0 (A 1), (A 1).shufflePd1 (C 1), A 2, (C 2).shufflePd0 (A 3), (A 3).shufflePd1 (C 3),
  A 4, (C 4).shufflePd0 (A 5), (A 5).shufflePd1 (C 5), A 6, (C 6).shufflePd0 (A 7), (A 7).shufflePd1 (C 7), A 8]

/-- A step of the 192-bit schedule. -/
def step192 {σ : Type} (kgen : Blk → Byte → AesM σ Blk) (st : List (Blk × Blk) × (Blk × Blk)) (r : Byte) : AesM σ (List (Blk × Blk) × (Blk × Blk)) := do
  let g ← kgen st.2.2 r
  Pure.pure (st.1 ++ [key192Assist st.2.1 g st.2.2], key192Assist st.2.1 g st.2.2)

theorem keySched192_fold {σ : Type} (kgen : Blk → Byte → AesM σ Blk) (t1 t3 : Blk) : keySched192 kgen t1 t3 =
    (([0x01, 0x02, 0x04, 0x08, 0x10, 0x20, 0x40, 0x80] : List Byte).foldlM (step192 kgen) ([(t1, t3)], (t1, t3)) >>= fun r =>
      Pure.pure (layout192 (fun i => (r.1.getD i (t1, t3)).1) (fun i => (r.1.getD i (t1, t3)).2))) := by
  simp only [List.foldlM_cons, List.foldlM_nil, step192, bind_assoc, pure_bind]
  rfl

theorem rcons192_eq : ([0x01, 0x02, 0x04, 0x08, 0x10, 0x20, 0x40, 0x80] : List Byte) = (List.range 8).map rc := by decide

theorem step192_mono (T : Bytes) (a : List (Blk × Blk) × (Blk × Blk)) (b : Byte) : Mono (step192 (kgenShare192 true T) a b) :=
  (kgenShare192_mono _ _ _ _).bind fun _ => Mono.pure _

theorem keySched192_gen (A C : Nat → Blk) (ins : Nat → Bytes) (P : Nat → Blk → Prop)
    (hk : ∀ i < 8, Tr (ins i) (P i) (kgenPlain192 (C i) (rc i)) (kgenSave192 (C i) (rc i)) (fun T => kgenShare192 true T (C i) (rc i)))
    (hs : ∀ i < 8, ∀ g, P i g → key192Assist (A i) g (C i) = (A (i + 1), C (i + 1))) :
    Tr ((List.range 8).flatMap ins) (· = layout192 A C) (keySched192 kgenPlain192 (A 0) (C 0)) (keySched192 kgenSave192 (A 0) (C 0)) (fun T => keySched192 (kgenShare192 true T) (A 0) (C 0)) := by
  simp only [keySched192_fold]
  rw [rcons192_eq]
  refine Tr.cast (Tr.bind (i2 := []) (Tr.foldlM 8 rc (fun i => ((List.range (i + 1)).map (fun i => (A i, C i)), (A i, C i))) ins ?_ ?_) ?_ ?_ ?_) (List.append_nil _)
  · intro i hi
    unfold step192
    dsimp only
    refine Tr.cast (Tr.bind (i2 := []) (hk i hi) ?_ (fun _ _ => Mono.pure _) (fun _ => kgenShare192_mono _ _ _ _)) (List.append_nil _)
    have key' : ∀ g : Blk, P i g → ((List.range (i + 1)).map (fun i => (A i, C i)) ++ [key192Assist (A i) g (C i)], key192Assist (A i) g (C i)) =
        ((List.range (i + 1 + 1)).map (fun i => (A i, C i)), (A (i + 1), C (i + 1))) := by
      intro g hg
      rw [hs i hi g hg, List.range_succ (n := i + 1), List.map_append]
      rfl
    intro a b c ha hb hc
    exact Tr.pure (key' a ha) (key' b hb) (key' c hc)
  · intro T a b
    exact step192_mono T a b
  · rintro _ _ _ rfl rfl rfl
    exact Tr.pure rfl rfl rfl
  · intro T c
    exact Mono.pure _
  · intro T
    exact Mono.foldlM _ (step192_mono T) _

/-- The inputs of the key expansion, group by group (`nk = 4` or `6`). -/
theorem keyInputs_groups (nk : Nat) (key : Bytes) (h4 : 4 ≤ nk) (h6 : nk ≤ 6) (n k : Nat) (hk : 0 < k) (hk' : k ≤ nk) :
    keyInputs nk key (nk * (n + 1) + k) = (List.range (n + 1)).flatMap (fun i => (rotWord (W nk key (nk * i + (nk - 1)))).toList) := by
  rw [keyInputs_eq nk (by omega)]
  have e0 : ∀ n, wIns nk key (nk * (n + 1)) = (rotWord (W nk key (nk * n + (nk - 1)))).toList := by
    intro n
    unfold wIns
    rw [if_neg (by rw [Nat.mul_succ]; omega), if_pos (Nat.mul_mod_right _ _), Nat.mul_succ, Nat.add_sub_assoc (by omega)]
  have e1 : ∀ n j, 0 < j → j < nk → wIns nk key (nk * n + j) = [] := by
    intro n j h1 h2
    unfold wIns
    rw [Nat.mul_add_mod, Nat.mod_eq_of_lt h2, if_neg (c := j = 0) (by omega), if_neg (c := 6 < nk ∧ j = 4) (by omega), ite_self]
  have e2 : ∀ n k, 0 < k → k ≤ nk → (List.range (nk * n + k)).flatMap (wIns nk key) = (List.range (nk * n + 1)).flatMap (wIns nk key) := by
    intro n k h1 h2
    induction k with
    | zero => omega
    | succ k ih =>
      by_cases hk : k = 0
      · rw [hk]
      · rw [← ih (by omega) (by omega), show nk * n + (k + 1) = nk * n + k + 1 by omega, List.range_succ, List.flatMap_append, List.flatMap_singleton, e1 n k (by omega) (by omega), List.append_nil]
  have h : ∀ n, (List.range (nk * n + 1)).flatMap (wIns nk key) = (List.range n).flatMap (fun i => (rotWord (W nk key (nk * i + (nk - 1)))).toList) := by
    intro n
    induction n with
    | zero =>
      rw [Nat.mul_zero]
      simp [List.range_succ, wIns]
      omega
    | succ n ih =>
      rw [List.range_succ, List.range_succ (n := n), List.flatMap_append, List.flatMap_append, List.flatMap_singleton, List.flatMap_singleton, e0 n, ← ih, Nat.mul_succ, e2 n nk (by omega) (le_refl _)]
  rw [e2 (n + 1) k hk hk', h]

/-- The upper half of `temp3` after `i` steps: not used. -/
theorem key192_round (key : Bytes) (i : Nat) (G : Word) (hG : gWord (rotWord (W 6 key (6 * i + 5))) (rc i) = G) (u v : Word) : ∃ u' v', ∀ g : Blk, g.bcast 1 = Blk.ofWords G G G G →
    key192Assist (Blk.ofWords (W 6 key (6 * i)) (W 6 key (6 * i + 1)) (W 6 key (6 * i + 2)) (W 6 key (6 * i + 3))) g (Blk.ofWords (W 6 key (6 * i + 4)) (W 6 key (6 * i + 5)) u v) =
      (Blk.ofWords (W 6 key (6 * (i + 1))) (W 6 key (6 * (i + 1) + 1)) (W 6 key (6 * (i + 1) + 2)) (W 6 key (6 * (i + 1) + 3)), Blk.ofWords (W 6 key (6 * (i + 1) + 4)) (W 6 key (6 * (i + 1) + 5)) u' v') := by
  obtain ⟨u', v', h⟩ := key192Assist_ofWords (W 6 key (6 * i)) (W 6 key (6 * i + 1)) (W 6 key (6 * i + 2)) (W 6 key (6 * i + 3)) G (W 6 key (6 * i + 4)) (W 6 key (6 * i + 5)) u v
  refine ⟨u', v', fun g hg => ?_⟩
  rw [h g hg]
  unfold run4
  have h0 := W_rec0 6 key i (by omega)
  rw [show 6 * i + (6 - 1) = 6 * i + 5 from rfl, hG] at h0
  have h1 := W_rec1 6 key i 1 (by omega) (by omega) (by omega)
  have h2 := W_rec1 6 key i 2 (by omega) (by omega) (by omega)
  have h3 := W_rec1 6 key i 3 (by omega) (by omega) (by omega)
  have h4 := W_rec1 6 key i 4 (by omega) (by omega) (by omega)
  have h5 := W_rec1 6 key i 5 (by omega) (by omega) (by omega)
  simp only [Nat.add_sub_cancel, show 6 * (i + 1) + 2 - 1 = 6 * (i + 1) + 1 by omega, show 6 * (i + 1) + 3 - 1 = 6 * (i + 1) + 2 by omega, show 6 * (i + 1) + 4 - 1 = 6 * (i + 1) + 3 by omega,
    show 6 * (i + 1) + 5 - 1 = 6 * (i + 1) + 4 by omega] at h0 h1 h2 h3 h4 h5
  rw [h5, h4, h3, h2, h1, h0]

theorem loadBlk_ofWords (key : Bytes) (off : Nat) : loadBlk key (4 * off) = Blk.ofWords (keyWord key off) (keyWord key (off + 1)) (keyWord key (off + 2)) (keyWord key (off + 3)) := by
  apply Vector.ext
  intro i hi
  rw [getElem_ofWords]
  unfold loadBlk keyWord
  simp only [Vector.getElem_ofFn]
  split
  · congr 1; omega
  split
  · congr 1; omega
  split
  · congr 1; omega
  · congr 1; omega

theorem layout192_eq (w : Nat → Word) (u v : Nat → Word) :
    layout192 (fun i => Blk.ofWords (w (6 * i)) (w (6 * i + 1)) (w (6 * i + 2)) (w (6 * i + 3))) (fun i => Blk.ofWords (w (6 * i + 4)) (w (6 * i + 5)) (u i) (v i)) =
      (List.range 13).map (fun j => Blk.ofWords (w (4 * j)) (w (4 * j + 1)) (w (4 * j + 2)) (w (4 * j + 3))) := by
  unfold layout192
  simp only [ofWords_shufflePd0, ofWords_shufflePd1]
  rfl

theorem keySched192_tr (key : Bytes) : Tr (keyInputs 6 key 52) (· = (List.range 13).map (roundKey 6 key))
    (keySched192 kgenPlain192 (loadBlk key 0) (loadBlk key 16)) (keySched192 kgenSave192 (loadBlk key 0) (loadBlk key 16)) (fun T => keySched192 (kgenShare192 true T) (loadBlk key 0) (loadBlk key 16)) := by
  have hstep : ∀ i (uv : Word × Word), ∃ uv' : Word × Word, ∀ g : Blk,
      g.bcast 1 = Blk.ofWords (gWord (rotWord (W 6 key (6 * i + 5))) (rc i)) (gWord (rotWord (W 6 key (6 * i + 5))) (rc i)) (gWord (rotWord (W 6 key (6 * i + 5))) (rc i)) (gWord (rotWord (W 6 key (6 * i + 5))) (rc i)) →
      key192Assist (Blk.ofWords (W 6 key (6 * i)) (W 6 key (6 * i + 1)) (W 6 key (6 * i + 2)) (W 6 key (6 * i + 3))) g (Blk.ofWords (W 6 key (6 * i + 4)) (W 6 key (6 * i + 5)) uv.1 uv.2) =
      (Blk.ofWords (W 6 key (6 * (i + 1))) (W 6 key (6 * (i + 1) + 1)) (W 6 key (6 * (i + 1) + 2)) (W 6 key (6 * (i + 1) + 3)), Blk.ofWords (W 6 key (6 * (i + 1) + 4)) (W 6 key (6 * (i + 1) + 5)) uv'.1 uv'.2) := by
    intro i uv
    obtain ⟨u', v', h⟩ := key192_round key i _ rfl uv.1 uv.2
    exact ⟨(u', v'), h⟩
  choose nxt hnxt using hstep
  let uv : Nat → Word × Word := fun i => Nat.rec (keyWord key 6, keyWord key 7) nxt i
  have e0 : loadBlk key 0 = Blk.ofWords (W 6 key (6 * 0)) (W 6 key (6 * 0 + 1)) (W 6 key (6 * 0 + 2)) (W 6 key (6 * 0 + 3)) := by
    rw [W_key _ _ _ (by omega), W_key _ _ _ (by omega), W_key _ _ _ (by omega), W_key _ _ _ (by omega)]
    exact loadBlk_ofWords key 0
  have e1 : loadBlk key 16 = Blk.ofWords (W 6 key (6 * 0 + 4)) (W 6 key (6 * 0 + 5)) (uv 0).1 (uv 0).2 := by
    rw [W_key _ _ _ (by omega), W_key _ _ _ (by omega)]
    exact loadBlk_ofWords key 4
  have hg := keyInputs_groups 6 key (by omega) (by omega) 7 4 (by omega) (by omega)
  rw [show 6 * (7 + 1) + 4 = 52 from rfl] at hg
  rw [hg, e0, e1]
  have hl := layout192_eq (W 6 key) (fun i => (uv i).1) (fun i => (uv i).2)
  have := keySched192_gen (fun i => Blk.ofWords (W 6 key (6 * i)) (W 6 key (6 * i + 1)) (W 6 key (6 * i + 2)) (W 6 key (6 * i + 3))) (fun i => Blk.ofWords (W 6 key (6 * i + 4)) (W 6 key (6 * i + 5)) (uv i).1 (uv i).2)
    (fun i => (rotWord (W 6 key (6 * i + 5))).toList) (fun i g => g.bcast 1 = Blk.ofWords (gWord (rotWord (W 6 key (6 * i + 5))) (rc i)) (gWord (rotWord (W 6 key (6 * i + 5))) (rc i)) (gWord (rotWord (W 6 key (6 * i + 5))) (rc i)) (gWord (rotWord (W 6 key (6 * i + 5))) (rc i)))
    (fun i _ => kgen192_word _ _ _ _ (rc i)) (fun i _ g hg => hnxt i (uv i) g hg)
  rw [hl] at this
  exact this

/-- A step of the 256-bit schedule. -/
def step256 {σ : Type} (kgen : Blk → Byte → AesM σ Blk) (kgen2 : Blk → AesM σ Blk) (st : List Blk × Blk × Blk) (r : Byte) : AesM σ (List Blk × Blk × Blk) := do
  let g ← kgen st.2.2 r
  let g2 ← kgen2 (key256Assist1 st.2.1 g)
  Pure.pure (st.1 ++ [key256Assist1 st.2.1 g, key256Assist2 g2 st.2.2], key256Assist1 st.2.1 g, key256Assist2 g2 st.2.2)

theorem keySched256_fold {σ : Type} (kgen : Blk → Byte → AesM σ Blk) (kgen2 : Blk → AesM σ Blk) (t1 t3 : Blk) : keySched256 kgen kgen2 t1 t3 =
    (rcons256.foldlM (step256 kgen kgen2) ([t1, t3], t1, t3) >>= fun r => (kgen r.2.2 0x40 >>= fun g => Pure.pure (r.1 ++ [key256Assist1 r.2.1 g]))) := rfl

theorem rcons256_eq : rcons256 = (List.range 6).map rc := by decide

theorem step256_mono (T : Bytes) (a : List Blk × Blk × Blk) (b : Byte) : Mono (step256 (kgenShare true T) (kgenShare256b true T) a b) :=
  (kgenShare_mono _ _ _ _).bind fun _ => (kgenShare256b_mono _ _ _).bind fun _ => Mono.pure _

theorem keySched256_gen (B : Nat → Blk) (ins ins' : Nat → Bytes) (P P' : Nat → Blk → Prop)
    (hk : ∀ i < 7, Tr (ins i) (P i) (kgenPlain (B (2 * i + 1)) (rc i)) (kgenSave (B (2 * i + 1)) (rc i)) (fun T => kgenShare true T (B (2 * i + 1)) (rc i)))
    (hs : ∀ i < 7, ∀ g, P i g → key256Assist1 (B (2 * i)) g = B (2 * i + 2))
    (hk' : ∀ i < 6, Tr (ins' i) (P' i) (kgenPlain (B (2 * i + 2)) 0) (kgenSave256b (B (2 * i + 2))) (fun T => kgenShare256b true T (B (2 * i + 2))))
    (hs' : ∀ i < 6, ∀ g, P' i g → key256Assist2 g (B (2 * i + 1)) = B (2 * i + 3)) :
    Tr ((List.range 6).flatMap (fun i => ins i ++ ins' i) ++ ins 6) (· = (List.range 15).map B) (keySched256 kgenPlain (fun m => kgenPlain m 0) (B 0) (B 1)) (keySched256 kgenSave kgenSave256b (B 0) (B 1))
      (fun T => keySched256 (kgenShare true T) (kgenShare256b true T) (B 0) (B 1)) := by
  simp only [keySched256_fold]
  rw [rcons256_eq]
  refine Tr.bind (Tr.foldlM 6 rc (fun i => ((List.range (2 * i + 2)).map B, B (2 * i), B (2 * i + 1))) (fun i => ins i ++ ins' i) ?_ ?_) ?_ ?_ ?_
  · intro i hi
    unfold step256
    dsimp only
    refine Tr.bind (hk i (by omega)) ?_ (fun _ _ => (kgenShare256b_mono _ _ _).bind fun _ => Mono.pure _) (fun _ => kgenShare_mono _ _ _ _)
    intro a b c ha hb hc
    rw [hs i (by omega) a ha, hs i (by omega) b hb, hs i (by omega) c hc]
    refine Tr.cast (Tr.bind (i2 := []) (hk' i hi) ?_ (fun _ _ => Mono.pure _) (fun _ => kgenShare256b_mono _ _ _)) (List.append_nil _)
    have key' : ∀ g : Blk, P' i g → ((List.range (2 * i + 2)).map B ++ [B (2 * i + 2), key256Assist2 g (B (2 * i + 1))], B (2 * i + 2), key256Assist2 g (B (2 * i + 1))) =
        ((List.range (2 * (i + 1) + 2)).map B, B (2 * (i + 1)), B (2 * (i + 1) + 1)) := by
      intro g hg
      rw [hs' i hi g hg, show 2 * (i + 1) + 2 = 2 * i + 2 + 1 + 1 by omega, List.range_succ (n := 2 * i + 2 + 1), List.range_succ (n := 2 * i + 2), List.map_append, List.map_append, List.append_assoc]
      rfl
    intro a b c ha hb hc
    exact Tr.pure (key' a ha) (key' b hb) (key' c hc)
  · intro T a b
    exact step256_mono T a b
  · rintro _ _ _ rfl rfl rfl
    dsimp only
    rw [show (0x40 : Byte) = rc 6 by decide]
    refine Tr.cast (Tr.bind (i2 := []) (hk 6 (by omega)) ?_ (fun _ _ => Mono.pure _) (fun _ => kgenShare_mono _ _ _ _)) (List.append_nil _)
    have key' : ∀ g : Blk, P 6 g → (List.range (2 * 6 + 2)).map B ++ [key256Assist1 (B (2 * 6)) g] = (List.range 15).map B := by
      intro g hg
      rw [hs 6 (by omega) g hg]
      rfl
    intro a b c ha hb hc
    exact Tr.pure (key' a ha) (key' b hb) (key' c hc)
  · intro T c
    exact (kgenShare_mono _ _ _ _).bind fun _ => Mono.pure _
  · intro T
    exact Mono.foldlM _ (step256_mono T) _

theorem keyInputs256 (key : Bytes) : keyInputs 8 key 60 =
    (List.range 6).flatMap (fun i => (rotWord (W 8 key (8 * i + 7))).toList ++ (W 8 key (8 * (i + 1) + 3)).toList) ++ (rotWord (W 8 key (8 * 6 + 7))).toList := by
  rw [keyInputs_eq 8 (by omega)]
  have e0 : ∀ n, wIns 8 key (8 * (n + 1)) = (rotWord (W 8 key (8 * n + 7))).toList := by
    intro n
    unfold wIns
    rw [if_neg (by omega), if_pos (by omega), show 8 * (n + 1) - 1 = 8 * n + 7 by omega]
  have e4 : ∀ n, wIns 8 key (8 * (n + 1) + 4) = (W 8 key (8 * (n + 1) + 3)).toList := by
    intro n
    unfold wIns
    rw [if_neg (by omega), if_neg (by omega), if_pos (by omega), show 8 * (n + 1) + 4 - 1 = 8 * (n + 1) + 3 by omega]
  have e1 : ∀ n j, 0 < j → j < 8 → j ≠ 4 → wIns 8 key (8 * n + j) = [] := by
    intro n j h1 h2 h3
    unfold wIns
    rw [if_neg (c := (8 * n + j) % 8 = 0) (by omega), if_neg (c := 6 < 8 ∧ (8 * n + j) % 8 = 4) (by omega), ite_self]
  have s : ∀ n, (List.range (n + 1)).flatMap (wIns 8 key) = (List.range n).flatMap (wIns 8 key) ++ wIns 8 key n := by
    intro n
    rw [List.range_succ, List.flatMap_append, List.flatMap_singleton]
  have h : ∀ n, (List.range (8 * n + 8)).flatMap (wIns 8 key) = (List.range n).flatMap (fun i => (rotWord (W 8 key (8 * i + 7))).toList ++ (W 8 key (8 * (i + 1) + 3)).toList) := by
    intro n
    induction n with
    | zero => simp [List.range_succ, wIns]
    | succ n ih =>
      rw [List.range_succ (n := n), List.flatMap_append, List.flatMap_singleton, ← ih]
      rw [show 8 * (n + 1) + 8 = 8 * (n + 1) + 7 + 1 from rfl, s, e1 (n + 1) 7 (by omega) (by omega) (by omega), show 8 * (n + 1) + 7 = 8 * (n + 1) + 6 + 1 from rfl, s,
        e1 (n + 1) 6 (by omega) (by omega) (by omega), show 8 * (n + 1) + 6 = 8 * (n + 1) + 5 + 1 from rfl, s, e1 (n + 1) 5 (by omega) (by omega) (by omega),
        show 8 * (n + 1) + 5 = 8 * (n + 1) + 4 + 1 from rfl, s, e4 n, show 8 * (n + 1) + 4 = 8 * (n + 1) + 3 + 1 from rfl, s, e1 (n + 1) 3 (by omega) (by omega) (by omega),
        show 8 * (n + 1) + 3 = 8 * (n + 1) + 2 + 1 from rfl, s, e1 (n + 1) 2 (by omega) (by omega) (by omega), show 8 * (n + 1) + 2 = 8 * (n + 1) + 1 + 1 from rfl, s,
        e1 (n + 1) 1 (by omega) (by omega) (by omega), s, e0 n]
      simp only [List.append_nil, List.append_assoc]
      rfl
  rw [show 60 = 8 * 7 + 3 + 1 from rfl, s, e1 7 3 (by omega) (by omega) (by omega), show 8 * 7 + 3 = 8 * 7 + 2 + 1 from rfl, s, e1 7 2 (by omega) (by omega) (by omega),
    show 8 * 7 + 2 = 8 * 7 + 1 + 1 from rfl, s, e1 7 1 (by omega) (by omega) (by omega), s, show 8 * 7 = 8 * 6 + 8 from rfl, h]
  rw [show 8 * 6 + 8 = 8 * (6 + 1) from rfl, e0 6]
  simp only [List.append_nil]

theorem key256_round1 (key : Bytes) (i : Nat) (G : Word) (hG : gWord (rotWord (W 8 key (8 * i + 7))) (rc i) = G) (g : Blk) (hg : g.bcast 3 = Blk.ofWords G G G G) :
    key256Assist1 (roundKey 8 key (2 * i)) g = roundKey 8 key (2 * i + 2) := by
  unfold roundKey
  rw [key256Assist1_ofWords _ _ _ _ _ g hg]
  unfold run4
  have h0 := W_rec0 8 key i (by omega)
  rw [show 8 * i + (8 - 1) = 8 * i + 7 from rfl, hG] at h0
  have h1 := W_rec1 8 key i 1 (by omega) (by omega) (by omega)
  have h2 := W_rec1 8 key i 2 (by omega) (by omega) (by omega)
  have h3 := W_rec1 8 key i 3 (by omega) (by omega) (by omega)
  simp only [Nat.add_sub_cancel, show 8 * (i + 1) + 2 - 1 = 8 * (i + 1) + 1 by omega, show 8 * (i + 1) + 3 - 1 = 8 * (i + 1) + 2 by omega] at h0 h1 h2 h3
  rw [show 4 * (2 * i + 2) = 8 * (i + 1) by omega, show 4 * (2 * i) = 8 * i by omega, h3, h2, h1, h0]

theorem key256_round2 (key : Bytes) (i : Nat) (G : Word) (hG : gWord (W 8 key (8 * (i + 1) + 3)) 0 = G) (g : Blk) (hg : g.bcast 2 = Blk.ofWords G G G G) :
    key256Assist2 g (roundKey 8 key (2 * i + 1)) = roundKey 8 key (2 * i + 3) := by
  unfold roundKey
  rw [key256Assist2_ofWords _ _ _ _ _ g hg]
  unfold run4
  have h0 := W_rec4 8 key i (by omega)
  rw [hG] at h0
  have h1 := W_rec1 8 key i 5 (by omega) (by omega) (by omega)
  have h2 := W_rec1 8 key i 6 (by omega) (by omega) (by omega)
  have h3 := W_rec1 8 key i 7 (by omega) (by omega) (by omega)
  simp only [show 8 * (i + 1) + 5 - 1 = 8 * (i + 1) + 4 by omega, show 8 * (i + 1) + 6 - 1 = 8 * (i + 1) + 5 by omega, show 8 * (i + 1) + 7 - 1 = 8 * (i + 1) + 6 by omega] at h1 h2 h3
  rw [show 4 * (2 * i + 3) = 8 * (i + 1) + 4 by omega, show 4 * (2 * i + 1) = 8 * i + 4 by omega]
  rw [show 8 * (i + 1) + 4 + 1 = 8 * (i + 1) + 5 from rfl, show 8 * (i + 1) + 4 + 2 = 8 * (i + 1) + 6 from rfl, show 8 * (i + 1) + 4 + 3 = 8 * (i + 1) + 7 from rfl,
    show 8 * i + 4 + 1 = 8 * i + 5 from rfl, show 8 * i + 4 + 2 = 8 * i + 6 from rfl, show 8 * i + 4 + 3 = 8 * i + 7 from rfl, h3, h2, h1, h0]

theorem keySched256_tr (key : Bytes) : Tr (keyInputs 8 key 60) (· = (List.range 15).map (roundKey 8 key))
    (keySched256 kgenPlain (fun m => kgenPlain m 0) (loadBlk key 0) (loadBlk key 16)) (keySched256 kgenSave kgenSave256b (loadBlk key 0) (loadBlk key 16))
    (fun T => keySched256 (kgenShare true T) (kgenShare256b true T) (loadBlk key 0) (loadBlk key 16)) := by
  rw [show loadBlk key 0 = roundKey 8 key 0 from loadBlk_words key 8 0 (by omega), show loadBlk key 16 = roundKey 8 key 1 from loadBlk_words key 8 1 (by omega), keyInputs256]
  refine keySched256_gen (roundKey 8 key) (fun i => (rotWord (W 8 key (8 * i + 7))).toList) (fun i => (W 8 key (8 * (i + 1) + 3)).toList)
    (fun i g => ∃ G, gWord (rotWord (W 8 key (8 * i + 7))) (rc i) = G ∧ g.bcast 3 = Blk.ofWords G G G G)
    (fun i g => ∃ G, gWord (W 8 key (8 * (i + 1) + 3)) 0 = G ∧ g.bcast 2 = Blk.ofWords G G G G) ?_ ?_ ?_ ?_
  · intro i _
    have e : 4 * (2 * i + 1) + 3 = 8 * i + 7 := by omega
    have h := kgen_word (W 8 key (4 * (2 * i + 1))) (W 8 key (4 * (2 * i + 1) + 1)) (W 8 key (4 * (2 * i + 1) + 2)) (W 8 key (4 * (2 * i + 1) + 3)) (rc i)
    rw [e] at h
    unfold roundKey
    rw [e]
    exact h.imp fun g hg => ⟨_, rfl, hg⟩
  · rintro i _ g ⟨G, hG, hg⟩
    exact key256_round1 key i G hG g hg
  · intro i _
    have e : 4 * (2 * i + 2) + 3 = 8 * (i + 1) + 3 := by omega
    have h := kgen256b_word (W 8 key (4 * (2 * i + 2))) (W 8 key (4 * (2 * i + 2) + 1)) (W 8 key (4 * (2 * i + 2) + 2)) (W 8 key (4 * (2 * i + 2) + 3))
    rw [e] at h
    unfold roundKey
    rw [e]
    exact h.imp fun g hg => ⟨_, rfl, hg⟩
  · rintro i _ g ⟨G, hG, hg⟩
    exact key256_round2 key i G hG g hg

end Banquet
