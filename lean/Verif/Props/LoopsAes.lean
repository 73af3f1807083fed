import Verif.Proofs.LoopsAes
import Verif.Props.Hash
import Verif.Props.Shared

/-! Property theorems for C69: the loops over parties and blocks of `aes_*_s_shares` on shared buffers. -/

namespace Banquet.Props

open Spec Spec.Aes

/-- C69: one call of `aes_*_s_shares` on vectors with room for `T` repetitions: it stays within the vectors, every party's part of repetition `e` becomes the evaluation of that party alone, and all other parts stay as they are,
whatever the vectors contained before. -/
theorem C69_slots (I : Instance) (hI : Consistent I) (T e : Nat) (he : e < T) (pt : Bytes) (hpt : 16 * I.aes.numBlocks ≤ pt.length) (keys ts ct s : Bytes) (hk : keys.length = T * I.numParties * I.aes.keySize)
    (ht : ts.length = T * I.numParties * I.aes.numSboxes) (hc : ct.length = T * I.numParties * (16 * I.aes.numBlocks)) (hs : s.length = T * I.numParties * I.aes.numSboxes) :
    ∃ ct' s' : Bytes, Loops.aesRep I pt e ⟨keys, T, I.numParties, I.aes.keySize⟩ ⟨ts, T, I.numParties, I.aes.numSboxes⟩ (⟨ct, T, I.numParties, 16 * I.aes.numBlocks⟩, ⟨s, T, I.numParties, I.aes.numSboxes⟩) =
        .ok (⟨ct', T, I.numParties, 16 * I.aes.numBlocks⟩, ⟨s', T, I.numParties, I.aes.numSboxes⟩) ∧ ct'.length = ct.length ∧ s'.length = s.length ∧
      ∀ e' < T, ∀ p < I.numParties, (slot s' I.numParties I.aes.numSboxes e' p, slot ct' I.numParties (16 * I.aes.numBlocks) e' p) =
        if e' = e then Shared.evaluate (p == 0) (slot ts I.numParties I.aes.numSboxes e p) (I.aes.keySize / 4) I.aes.numBlocks (slot keys I.numParties I.aes.keySize e p) pt
        else (slot s I.numParties I.aes.numSboxes e' p, slot ct I.numParties (16 * I.aes.numBlocks) e' p) := by
  obtain ⟨hv, hk4, hbs⟩ := consistent_variant hI
  have hC : I.ctSize = 16 * I.aes.numBlocks := by
    unfold Instance.ctSize
    rw [hbs, Nat.mul_comm]
  rw [← hC] at hpt hc ⊢
  have hslot : ∀ (v : Bytes) (k e p : Nat), v.length = T * I.numParties * k → e < T → p < I.numParties → slot v I.numParties k e p = slice v ((e * I.numParties + p) * k) k := by
    intro v k e p hv he hp
    have h1 := Loops.slot_le (k := k) he hp
    have h2 : e * I.numParties * k + p * k = (e * I.numParties + p) * k := by ring
    unfold slot slice
    rw [h2]
    exact Loops.slot_slice (by omega)
  have hsl : ∀ (v : Bytes) (k e p : Nat), v.length = T * I.numParties * k → e < T → p < I.numParties → (slice v ((e * I.numParties + p) * k) k).length = k := by
    intro v k e p hv he hp
    have h1 := Loops.slot_le (k := k) he hp
    exact slice_length (by omega)
  obtain ⟨G, hG⟩ : ∃ G : Nat → Bytes × Bytes,
      G = fun p => aesParty I.aes.keySize (p == 0) (slice keys ((e * I.numParties + p) * I.aes.keySize) I.aes.keySize) (slice ts ((e * I.numParties + p) * I.aes.numSboxes) I.aes.numSboxes) pt := ⟨_, rfl⟩
  have hrun := Loops.aesRep_ok hI pt hpt he (fun e p => slice keys ((e * I.numParties + p) * I.aes.keySize) I.aes.keySize) (fun e p => slice ts ((e * I.numParties + p) * I.aes.numSboxes) I.aes.numSboxes)
    (fun e p => slice ct ((e * I.numParties + p) * I.ctSize) I.ctSize) (fun e p => slice s ((e * I.numParties + p) * I.aes.numSboxes) I.aes.numSboxes) (fun p hp => hsl keys _ _ _ hk he hp) (fun p hp => hsl ts _ _ _ ht he hp)
  have h2 : ∀ p, (aesParty I.aes.keySize (p == 0) (slice keys ((e * I.numParties + p) * I.aes.keySize) I.aes.keySize) (slice ts ((e * I.numParties + p) * I.aes.numSboxes) I.aes.numSboxes) pt) = G p := fun p => by rw [hG]
  simp only [h2] at hrun
  rw [← Loops.of_slots (z := (0 : Byte)) hk, ← Loops.of_slots (z := (0 : Byte)) ht, ← Loops.of_slots (z := (0 : Byte)) hc, ← Loops.of_slots (z := (0 : Byte)) hs] at hrun
  refine ⟨_, _, hrun.trans (congrArg Except.ok (congrArg₂ Prod.mk (Loops.of_eta _) (Loops.of_eta _))), (Loops.of_length _).trans hc.symm, (Loops.of_length _).trans hs.symm, fun e' he' p hp => ?_⟩
  have hpl := aesParty_length I.aes.keySize (p == 0) (slice keys ((e * I.numParties + p) * I.aes.keySize) I.aes.keySize) (slice ts ((e * I.numParties + p) * I.aes.numSboxes) I.aes.numSboxes) pt
  rw [← ctSize_eq hI, ← sboxCount_eq hI, h2] at hpl
  have hrow : ∀ (k : Nat) (v : Bytes) (G : Nat → Bytes), v.length = T * I.numParties * k → (G p).length = k →
      (Loops.rowUpd (fun e p => slice v ((e * I.numParties + p) * k) k) e I.numParties G e' p).length = k := by
    intro k v G hv hG
    unfold Loops.rowUpd
    split
    · exact hG
    · exact hsl v k e' p hv he' hp
  rw [hslot _ _ _ _ (Loops.of_length _) he' hp, hslot _ _ _ _ (Loops.of_length _) he' hp]
  rw [slice, slice, Loops.of_slice he' hp (hrow _ s (fun p => (G p).1) hs hpl.1), Loops.of_slice he' hp (hrow _ ct (fun p => (G p).2) hc hpl.2)]
  unfold Loops.rowUpd
  by_cases h : e' = e
  · rw [if_pos ⟨h, hp⟩, if_pos ⟨h, hp⟩, if_pos h, ← C55_party _ _ _ hv, hk4, hslot _ _ _ _ ht he hp, hslot _ _ _ _ hk he hp, h2]
  · rw [if_neg fun hh => h hh.1, if_neg fun hh => h hh.1, if_neg h, hslot _ _ _ _ hs he' hp, hslot _ _ _ _ hc he' hp]

/-- C69: with a shorter plaintext the call reads behind it. -/
theorem C69_short (I : Instance) (hI : Consistent I) (T e : Nat) (he : e < T) (pt : Bytes) (hpt : pt.length < 16 * I.aes.numBlocks) (keys ts ct s : Bytes) (hk : keys.length = T * I.numParties * I.aes.keySize)
    (ht : ts.length = T * I.numParties * I.aes.numSboxes) (hc : ct.length = T * I.numParties * (16 * I.aes.numBlocks)) (hs : s.length = T * I.numParties * I.aes.numSboxes) :
    Loops.aesRep I pt e ⟨keys, T, I.numParties, I.aes.keySize⟩ ⟨ts, T, I.numParties, I.aes.numSboxes⟩ (⟨ct, T, I.numParties, 16 * I.aes.numBlocks⟩, ⟨s, T, I.numParties, I.aes.numSboxes⟩) = .error .ub := by
  obtain ⟨hv, hk4, hbs⟩ := consistent_variant hI
  have hC : I.ctSize = 16 * I.aes.numBlocks := by
    unfold Instance.ctSize
    rw [hbs, Nat.mul_comm]
  rw [← hC] at hpt hc ⊢
  have hsl : ∀ (v : Bytes) (k e p : Nat), v.length = T * I.numParties * k → e < T → p < I.numParties → (slice v ((e * I.numParties + p) * k) k).length = k := by
    intro v k e p hv he hp
    have h1 := Loops.slot_le (k := k) he hp
    exact slice_length (by omega)
  rw [Loops.of_slots (z := (0 : Byte)) hk, Loops.of_slots (z := (0 : Byte)) ht, Loops.of_slots (z := (0 : Byte)) hc, Loops.of_slots (z := (0 : Byte)) hs,
    Loops.aesRep_short hI pt hpt he _ _ _ _ (fun p hp => hsl keys _ _ _ hk he hp) (fun p hp => hsl ts _ _ _ ht he hp) (fun p hp => hsl ct _ _ _ hc he hp) (fun p hp => hsl s _ _ _ hs he hp)]

/-- C69: the sums over the parties after the call are the evaluation of a single party that holds the sums of the shares; so if all products of recorded values and `t` shares are 1, the ciphertext shares add up to the AES
ciphertext under the key that the key shares add up to. -/
theorem C69_sum (I : Instance) (hI : Consistent I) (T e : Nat) (he : e < T) (pt : Bytes) (hpt : 16 * I.aes.numBlocks ≤ pt.length) (keys ts ct s : Bytes) (hk : keys.length = T * I.numParties * I.aes.keySize)
    (ht : ts.length = T * I.numParties * I.aes.numSboxes) (hc : ct.length = T * I.numParties * (16 * I.aes.numBlocks)) (hs : s.length = T * I.numParties * I.aes.numSboxes) (key t : Bytes)
    (hkey : xorOf I.aes.keySize ((List.range I.numParties).map (slot keys I.numParties I.aes.keySize e)) = key) (htsum : xorOf I.aes.numSboxes ((List.range I.numParties).map (slot ts I.numParties I.aes.numSboxes e)) = t) :
    ∃ ct' s' : Bytes, Loops.aesRep I pt e ⟨keys, T, I.numParties, I.aes.keySize⟩ ⟨ts, T, I.numParties, I.aes.numSboxes⟩ (⟨ct, T, I.numParties, 16 * I.aes.numBlocks⟩, ⟨s, T, I.numParties, I.aes.numSboxes⟩) =
        .ok (⟨ct', T, I.numParties, 16 * I.aes.numBlocks⟩, ⟨s', T, I.numParties, I.aes.numSboxes⟩) ∧
      (xorOf I.aes.numSboxes ((List.range I.numParties).map (slot s' I.numParties I.aes.numSboxes e)), xorOf (16 * I.aes.numBlocks) ((List.range I.numParties).map (slot ct' I.numParties (16 * I.aes.numBlocks) e))) =
        Shared.evaluate true t (I.aes.keySize / 4) I.aes.numBlocks key pt ∧
      ((∀ i < I.aes.numSboxes, mul ((xorOf I.aes.numSboxes ((List.range I.numParties).map (slot s' I.numParties I.aes.numSboxes e))).getD i 0) (t.getD i 0) = 1) →
        xorOf (16 * I.aes.numBlocks) ((List.range I.numParties).map (slot ct' I.numParties (16 * I.aes.numBlocks) e)) = encrypt (I.aes.keySize / 4) I.aes.numBlocks key pt ∧
        0 ∉ sboxInputs (I.aes.keySize / 4) I.aes.numBlocks key pt) := by
  obtain ⟨hv, hk4, hbs⟩ := consistent_variant hI
  obtain ⟨ct', s', h1, -, -, h4⟩ := C69_slots I hI T e he pt hpt keys ts ct s hk ht hc hs
  obtain ⟨n, hn⟩ : ∃ n, I.numParties = n + 1 := ⟨I.numParties - 1, by have := (parties_bounds hI).1; omega⟩
  have hsl : ∀ (v : Bytes) (k p : Nat), v.length = T * I.numParties * k → p < I.numParties → (slot v I.numParties k e p).length = k := by
    intro v k p hv hp
    have h1 := Loops.slot_le (k := k) he hp
    have h2 : e * I.numParties * k + p * k = (e * I.numParties + p) * k := by ring
    unfold slot
    rw [h2, Loops.slot_slice (by omega)]
    simp
    omega
  have hd : ∀ f : Nat → Bytes, (List.range I.numParties).map f = f 0 :: ((List.range n).map fun i => f (i + 1)) := by
    intro f
    rw [hn, List.range_succ_eq_map, List.map_cons, List.map_map]
    rfl
  have hps := C31_shares (I.aes.keySize / 4) I.aes.numBlocks I.aes.numSboxes hv pt (slot keys I.numParties I.aes.keySize e 0) (slot ts I.numParties I.aes.numSboxes e 0)
    ((List.range n).map fun i => (slot keys I.numParties I.aes.keySize e (i + 1), slot ts I.numParties I.aes.numSboxes e (i + 1)))
    (by rw [hk4]; exact hsl _ _ _ hk (by omega)) (hsl _ _ _ ht (by omega))
    (by
      intro q hq
      obtain ⟨i, hi, rfl⟩ := List.mem_map.1 hq
      have := List.mem_range.1 hi
      rw [hk4]
      exact ⟨hsl _ _ _ hk (by omega), hsl _ _ _ ht (by omega)⟩)
  rw [List.map_map, List.map_map, List.map_map, List.map_map, hk4] at hps
  have hp0 := h4 e he 0 (by omega)
  rw [if_pos rfl, ← C55_party _ _ _ hv, hk4] at hp0
  have hpi : ∀ i ∈ List.range n, (slot s' I.numParties I.aes.numSboxes e (i + 1), slot ct' I.numParties (16 * I.aes.numBlocks) e (i + 1)) =
      aesParty I.aes.keySize false (slot keys I.numParties I.aes.keySize e (i + 1)) (slot ts I.numParties I.aes.numSboxes e (i + 1)) pt := by
    intro i hi
    have := h4 e he (i + 1) (by have := List.mem_range.1 hi; omega)
    rw [if_pos rfl, ← C55_party _ _ _ hv, hk4] at this
    exact this
  have hsum : (xorOf I.aes.numSboxes ((List.range I.numParties).map (slot s' I.numParties I.aes.numSboxes e)), xorOf (16 * I.aes.numBlocks) ((List.range I.numParties).map (slot ct' I.numParties (16 * I.aes.numBlocks) e))) =
      Shared.evaluate true t (I.aes.keySize / 4) I.aes.numBlocks key pt := by
    rw [← C55_party _ _ _ hv, ← hkey, ← htsum, hd, hd, hd, hd, hk4]
    refine Eq.trans (congrArg₂ Prod.mk (congrArg _ (congrArg₂ List.cons ?_ (List.map_congr_left fun i hi => ?_))) (congrArg _ (congrArg₂ List.cons ?_ (List.map_congr_left fun i hi => ?_)))) hps
    · exact congrArg Prod.fst hp0
    · exact congrArg Prod.fst (hpi i hi)
    · exact congrArg Prod.snd hp0
    · exact congrArg Prod.snd (hpi i hi)
  refine ⟨ct', s', h1, hsum, fun h => ?_⟩
  rw [Prod.ext_iff] at hsum
  exact C55_conv _ _ _ hv key t pt _ _ (Prod.ext hsum.1.symm hsum.2.symm) h

/-- The second of two repetitions with two parties, in vectors that are not empty before: the part of the second party, and a part of the first repetition. -/
example : ∃ ct' s' : Bytes, Loops.aesRep smallInstance (List.replicate 16 7) 1 ⟨List.replicate 64 0, 2, 2, 16⟩ ⟨List.replicate 800 1, 2, 2, 200⟩ (⟨List.replicate 64 9, 2, 2, 16⟩, ⟨List.replicate 800 5, 2, 2, 200⟩) =
      .ok (⟨ct', 2, 2, 16⟩, ⟨s', 2, 2, 200⟩) ∧ slot ct' 2 16 1 1 = [31, 31, 31, 31, 0, 0, 0, 0, 31, 31, 31, 31, 0, 0, 0, 0] ∧ slot ct' 2 16 0 1 = List.replicate 16 9 := by
  obtain ⟨ct', s', h, -, -, hs⟩ := C69_slots smallInstance small_consistent 2 1 (by decide) (List.replicate 16 7) (by decide) (List.replicate 64 0) (List.replicate 800 1) (List.replicate 64 9) (List.replicate 800 5)
    (by decide +kernel) (by decide +kernel) (by decide +kernel) (by decide +kernel)
  refine ⟨ct', s', h, (congrArg Prod.snd (hs 1 (by decide) 1 (by decide))).trans ?_, (congrArg Prod.snd (hs 0 (by decide) 1 (by decide))).trans ?_⟩ <;> decide +kernel

/-- A plaintext with a byte missing. -/
example : Loops.aesRep smallInstance (List.replicate 15 7) 1 ⟨List.replicate 64 0, 2, 2, 16⟩ ⟨List.replicate 800 1, 2, 2, 200⟩ (⟨List.replicate 64 9, 2, 2, 16⟩, ⟨List.replicate 800 5, 2, 2, 200⟩) = .error .ub :=
  C69_short smallInstance small_consistent 2 1 (by decide) _ (by decide) _ _ _ _ (by decide +kernel) (by decide +kernel) (by decide +kernel) (by decide +kernel)

/-- The key of the known answer test in two shares, all `t` shares with the first party. -/
example : ∃ t ct' s' : Bytes, Loops.aesRep smallInstance ([1, 1, 1, 1] ++ List.replicate 12 0) 0 ⟨List.replicate 16 0xf0 ++ List.replicate 16 0x0f, 1, 2, 16⟩ ⟨t ++ List.replicate 200 0, 1, 2, 200⟩
      (⟨List.replicate 32 0, 1, 2, 16⟩, ⟨List.replicate 400 0, 1, 2, 200⟩) = .ok (⟨ct', 1, 2, 16⟩, ⟨s', 1, 2, 200⟩) ∧
      xorOf 16 [slot ct' 2 16 0 0, slot ct' 2 16 0 1] = encrypt 4 1 (List.replicate 16 0xff) ([1, 1, 1, 1] ++ List.replicate 12 0) := by
  obtain ⟨s, t, hs, ht, hm, _, he⟩ := C55_encrypt 4 1 200 (.inl rfl) (List.replicate 16 0xff) ([1, 1, 1, 1] ++ List.replicate 12 0) kat_nonzero
  obtain ⟨ct', s', h, hsum, _⟩ := C69_sum smallInstance small_consistent 1 0 (by decide) ([1, 1, 1, 1] ++ List.replicate 12 0) (by decide) (List.replicate 16 0xf0 ++ List.replicate 16 0x0f) (t ++ List.replicate 200 0)
    (List.replicate 32 0) (List.replicate 400 0) (by decide +kernel) (by rw [List.length_append, ht, List.length_replicate]; decide) (by decide +kernel) (by decide +kernel) (List.replicate 16 0xff) t (by decide +kernel) (Loops.two_slots ht)
  exact ⟨t, ct', s', h, (congrArg Prod.snd hsum).trans (congrArg Prod.snd he)⟩

end Banquet.Props
