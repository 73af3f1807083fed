import Verif.Proofs.LoopsSignAll
import Verif.Proofs.Serialize

/-! What `Loops.signWith` puts into a signature for keys of any length. -/

namespace Banquet.Loops

open Spec

/-- An invariant of a loop that returns. -/
theorem forTo_inv {σ : Type} (P : Nat → σ → Prop) (n : Nat) (body : Nat → σ → M σ) (s t : σ) (h0 : P 0 s) (h : ∀ i < n, ∀ s s', P i s → body i s = .ok s' → P (i + 1) s') (ht : forTo n body s = .ok t) : P n t := by
  induction n generalizing t with
  | zero =>
    cases Except.ok.inj ht
    exact h0
  | succ n ih =>
    rw [forTo_succ] at ht
    obtain ⟨u, hu, hb⟩ := bind_ok.1 ht
    exact h n (by omega) u t (ih u (fun i hi => h i (by omega)) hu) hb

theorem xorOnto_length {src dst d : Bytes} (h : xorOnto src dst = .ok d) : d.length = dst.length := by
  unfold xorOnto at h
  obtain ⟨u, hu, hd⟩ := bind_ok.1 h
  by_cases hl : src.length ≤ dst.length
  · cases Except.ok.inj hd
    unfold xorBytes
    simp only [List.length_append, List.length_zipWith, List.length_drop]
    omega
  · rw [decide_eq_false hl, require_false] at hu
    cases hu

theorem signShare_length {I : Instance} {tapes c : RepContainer Byte} {start len e : Nat} {value : Bytes} {r : RepContainer Byte × Bytes} (h : signShare I tapes start len e value c = .ok r) : r.2.length = value.length := by
  unfold signShare at h
  obtain ⟨q, hq, h⟩ := bind_ok.1 h
  obtain ⟨c', -, h⟩ := bind_ok.1 h
  cases Except.ok.inj h
  refine forTo_inv (fun _ st => st.2.length = value.length) _ _ _ _ rfl (fun p _ s s' hs hb => ?_) hq
  obtain ⟨b, -, hb⟩ := bind_ok.1 hb
  obtain ⟨c1, -, hb⟩ := bind_ok.1 hb
  obtain ⟨sh, -, hb⟩ := bind_ok.1 hb
  obtain ⟨d, hd, hb⟩ := bind_ok.1 hb
  cases Except.ok.inj hb
  exact (xorOnto_length hd).trans hs

/-- Every key delta of a signature is as long as the key. -/
theorem signWith_keyDelta (X : Xof) (fuel : Nat) (F : FieldState) (I : Instance) (sk pk msg : Bytes) (sig : Signature) (h : signWith X fuel F I sk pk msg = .ok sig) :
    sig.proofs.length = I.numRounds ∧ ∀ pr ∈ sig.proofs, pr.skDelta.length = sk.length := by
  unfold signWith at h
  obtain ⟨_, -, h⟩ := bind_ok.1 h
  obtain ⟨_, -, h⟩ := bind_ok.1 h
  obtain ⟨_, -, h⟩ := bind_ok.1 h
  obtain ⟨tr, -, h⟩ := bind_ok.1 h
  obtain ⟨sh, hsh, h⟩ := bind_ok.1 h
  have hd : ∀ k ∈ sh.keyDeltas, k.length = sk.length := by
    refine forTo_inv (fun _ (st : Shares) => ∀ k ∈ st.keyDeltas, k.length = sk.length) _ _ _ _ (by simp) (fun e _ s s' hs hb => ?_) hsh
    unfold signShares at hb
    obtain ⟨⟨keys, kd⟩, hk, hb⟩ := bind_ok.1 hb
    obtain ⟨⟨t, td⟩, -, hb⟩ := bind_ok.1 hb
    obtain ⟨⟨ct, s1⟩, -, hb⟩ := bind_ok.1 hb
    cases Except.ok.inj hb
    intro k hm
    rcases List.mem_append.1 hm with hm | hm
    · exact hs k hm
    · cases List.mem_singleton.1 hm
      exact signShare_length hk
  obtain ⟨in1, -, h⟩ := bind_ok.1 h
  obtain ⟨last, -, h⟩ := bind_ok.1 h
  obtain ⟨lastSq, -, h⟩ := bind_ok.1 h
  obtain ⟨⟨ST, SL, TL⟩, -, h⟩ := bind_ok.1 h
  obtain ⟨po, -, h⟩ := bind_ok.1 h
  obtain ⟨in2, -, h⟩ := bind_ok.1 h
  obtain ⟨Rs, -, h⟩ := bind_ok.1 h
  obtain ⟨vi, -, h⟩ := bind_ok.1 h
  obtain ⟨in3, -, h⟩ := bind_ok.1 h
  obtain ⟨missing, -, h⟩ := bind_ok.1 h
  obtain ⟨reveals, -, h⟩ := bind_ok.1 h
  obtain ⟨proofs, hp, h⟩ := bind_ok.1 h
  cases Except.ok.inj h
  refine forTo_inv (fun n (l : List Proof) => l.length = n ∧ ∀ pr ∈ l, pr.skDelta.length = sk.length) _ _ _ _ (by simp) (fun e _ s s' hs hb => ?_) hp
  unfold signProof at hb
  obtain ⟨m, -, hb⟩ := bind_ok.1 hb
  obtain ⟨com, -, hb⟩ := bind_ok.1 hb
  obtain ⟨_, -, hb⟩ := bind_ok.1 hb
  obtain ⟨rl, -, hb⟩ := bind_ok.1 hb
  obtain ⟨kd, hkd, hb⟩ := bind_ok.1 hb
  obtain ⟨td, -, hb⟩ := bind_ok.1 hb
  obtain ⟨pd, -, hb⟩ := bind_ok.1 hb
  obtain ⟨c, -, hb⟩ := bind_ok.1 hb
  obtain ⟨a, -, hb⟩ := bind_ok.1 hb
  obtain ⟨b, -, hb⟩ := bind_ok.1 hb
  obtain ⟨acc, -, hb⟩ := bind_ok.1 hb
  have hkd' : kd.length = sk.length := by
    unfold rd at hkd
    split at hkd
    · next x hx =>
      cases Except.ok.inj hkd
      exact hd _ (List.mem_of_getElem? hx)
    · cases hkd
  split at hb
  · cases hb
  · cases Except.ok.inj hb
    refine ⟨by simp [hs.1], fun pr hm => ?_⟩
    rcases List.mem_append.1 hm with hm | hm
    · exact hs.2 pr hm
    · cases List.mem_singleton.1 hm
      exact hkd'

end Banquet.Loops
