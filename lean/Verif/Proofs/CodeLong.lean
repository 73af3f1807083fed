import Verif.Proofs.CodeMain
import Verif.Proofs.Keccak64State
import Verif.Proofs.KeccakX4
import Verif.Proofs.KeccakAvx2State
import Verif.Spec.Builds
import Verif.Proofs.Bounds
import Verif.Proofs.SpongeFail

/-! Messages near 4 GiB: the first hash call that absorbs the message leaves the Keccak state. Correctness of the builds. -/

namespace Banquet

open Spec

namespace Spec

theorem portable_ok : Correct keccakF portable := ⟨⟨_, Opt64.snp_ok⟩, _, Opt64.plSnp_ok⟩

theorem avx2_ok : Correct keccakF avx2 := ⟨⟨_, Avx2.snp_ok⟩, _, X4.plSnp_ok⟩

theorem ref_ok (f : St → St) : Correct f (refHash f) := by
  refine ⟨⟨id, ?_⟩, id, ?_⟩
  · exact ⟨rfl, fun s b o h => ⟨_, if_pos h, rfl⟩, fun s d o h => ⟨_, if_pos h, rfl⟩, fun s o n h => if_pos (by omega), fun _ => rfl, fun s l d _ _ => ⟨_, rfl, rfl⟩⟩
  · refine ⟨fun _ => rfl, fun s l b o h => ⟨_, if_pos h, fun l' => ?_⟩, fun s l d o h => ⟨_, if_pos h, fun l' => ?_⟩, fun s l o n h => if_pos (by omega), fun _ _ => rfl⟩
    · exact Function.update_apply s l _ l'
    · exact Function.update_apply s l _ l'

end Spec

namespace Code

theorem portable_guarded : Guarded portable.one := fun st data off h0 ho h => Opt64.addBytes_ub st data off h (by omega) (by omega)

theorem avx2_guarded : Guarded avx2.one := fun st data off _ ho h => Avx2.addBytes_ub st data off h ho

theorem ref_guarded (f : St → St) : Guarded (refHash f).one := fun _ _ _ _ _ h => if_neg (by omega)

variable {f : St → St} {S : SnP} {view : S.State → St} {k : ShakeKind} {m : Bytes} {s : Sponge S}

theorem salt_misfit (hS : Snp f S view) (hg : Guarded S) (I : Instance) (sk pk msg : Bytes) (h1 : Small sk.length) (h2 : Small pk.length)
    (hm : ¬Fits (kindRate (kindOf I.digestSize)) ((2 + sk.length + pk.length) % kindRate (kindOf I.digestSize)) msg.length) :
    genSaltAndSeeds S I sk pk msg = .error (misfit ((2 + sk.length + pk.length) % kindRate (kindOf I.digestSize)) msg.length) := by
  obtain ⟨s1, e1, a1⟩ := u16_abs hS (init_abs hS (kindOf I.digestSize)) I.params
  obtain ⟨s2, e2, a2⟩ := update_abs hS a1 sk h1
  obtain ⟨s3, e3, a3⟩ := update_abs hS a2 pk h2
  have hlen : ([] ++ le16 I.params ++ sk ++ pk).length = 2 + sk.length + pk.length := by simp [le16_length]; omega
  have e4 := hashUpdate_misfit hS hg a3 msg (by rw [hlen]; exact hm)
  unfold genSaltAndSeeds
  rw [bindOk e1, bindOk e2, bindOk e3, e4, hlen]
  rfl

theorem phase1_misfit (hS : Snp f S view) (hg : Guarded S) (I : Instance) (salt pk msg : Bytes) (reps : List Rep1Hash) (h1 : Small salt.length) (h2 : Small pk.length)
    (hm : ¬Fits (kindRate (kindOf I.digestSize)) ((1 + salt.length + pk.length) % kindRate (kindOf I.digestSize)) msg.length) :
    phase1Commit S I salt pk msg reps = .error (misfit ((1 + salt.length + pk.length) % kindRate (kindOf I.digestSize)) msg.length) := by
  obtain ⟨s1, e1, a1⟩ := prefix_abs hS I.digestSize 1
  obtain ⟨s2, e2, a2⟩ := update_abs hS a1 salt h1
  obtain ⟨s3, e3, a3⟩ := update_abs hS a2 pk h2
  have hlen : ([1] ++ salt ++ pk : Bytes).length = 1 + salt.length + pk.length := by simp; omega
  have e4 := hashUpdate_misfit hS hg a3 msg (by rw [hlen]; exact hm)
  unfold phase1Commit
  rw [bindOk e1, bindOk e2, bindOk e3, e4, hlen]
  rfl

theorem require_ok {e : Err} {b : Bool} (h : b = true) : require e b = .ok () := by rw [h]; rfl

/-- Sign reaches the first hash of the message. -/
theorem signWith_long (H : Hash) (J : Junk) (fuel : Nat) (F : FieldState) {I : Instance} (hI : Consistent I) (sk pk msg : Bytes) (h1 : sk.length = I.aes.keySize) (h2 : 2 * I.ctSize ≤ pk.length)
    (h3 : (aesSave I.aes.keySize sk (slice pk 0 I.ctSize)).2.2.length = I.aes.numSboxes) {e : Err} (h : genSaltAndSeeds H.one I sk pk msg = .error e) : signWith H J fuel F I sk pk msg = .error e := by
  unfold signWith
  rw [checkAes_ok hI, ok_bind, require_ok (decide_eq_true ⟨h1, h2⟩), ok_bind]
  simp only
  rw [require_ok (decide_eq_true ⟨h3, hI.sboxes.le⟩), ok_bind, h]
  rfl

theorem signRep1_ok {I : Instance} (hI : Consistent I) (X : Xof) (key pt savedT salt root : Bytes) (rep : Nat) (hr : root.length = I.seedSize) : ∃ r, Banquet.signRep1 X I key pt savedT salt root rep = .ok r := by
  obtain ⟨t, ht', hl⟩ := signTree hI X salt root rep hr
  unfold Banquet.signRep1
  rw [ht', ok_bind, mapM_ok _ (leafValue t) (partySeed X I salt root rep) (fun p hp => hl p (List.mem_range.1 hp)), ok_bind]
  exact ⟨_, rfl⟩

/-- Sign reaches the second hash of the message if the first works. -/
theorem signWith_long2 {f : St → St} {H : Hash} {v1 : H.one.State → St} {v4 : H.four.State → Fin 4 → St} (hv1 : Snp f H.one v1) (hv4 : PlSnp f H.four v4) (J : Junk) (fuel : Nat) (F : FieldState) {I : Instance} (hI : Consistent I)
    (hJ : ∀ e b, I.seedSize ≤ (J.tree e b).length) (sk pk msg : Bytes) (h1 : sk.length = I.aes.keySize) (h2 : 2 * I.ctSize ≤ pk.length)
    (h3 : (aesSave I.aes.keySize sk (slice pk 0 I.ctSize)).2.2.length = I.aes.numSboxes) (hpk : Small pk.length)
    (hm1 : Fits (kindRate (kindOf I.digestSize)) ((2 + sk.length + pk.length) % kindRate (kindOf I.digestSize)) msg.length) {e : Err}
    (h : ∀ salt reps, salt.length = 32 → phase1Commit H.one I salt pk msg reps = .error e) : signWith H J fuel F I sk pk msg = .error e := by
  obtain ⟨z1, z2, z3, z4, z5, z6, z7⟩ := sizes hI
  unfold signWith
  rw [checkAes_ok hI, ok_bind, require_ok (decide_eq_true ⟨h1, h2⟩), ok_bind]
  simp only
  rw [require_ok (decide_eq_true ⟨h3, hI.sboxes.le⟩), ok_bind, genSaltAndSeeds_eq hv1 I sk pk msg (by rw [h1]; exact small_of (by omega)) hpk hm1 (small_of (by omega)), ok_bind]
  have hlsalt : (genSalt (shake f) I sk pk msg).length = 32 := by unfold genSalt; rw [squeeze_len]
  simp only
  have hreps : ∃ reps, (List.range I.numRounds).mapM (fun e => signRep1 H J I sk (slice pk 0 I.ctSize) (aesSave I.aes.keySize sk (slice pk 0 I.ctSize)).2.2 (genSalt (shake f) I sk pk msg)
      (((List.range I.numRounds).map (genSeed (shake f) I sk pk msg)).getD e []) e) = .ok reps := by
    have : ∀ e, ∃ r, e < I.numRounds → signRep1 H J I sk (slice pk 0 I.ctSize) (aesSave I.aes.keySize sk (slice pk 0 I.ctSize)).2.2 (genSalt (shake f) I sk pk msg)
      (((List.range I.numRounds).map (genSeed (shake f) I sk pk msg)).getD e []) e = .ok r := by
      intro e
      have hroot : (genSeed (shake f) I sk pk msg e).length = I.seedSize := by unfold genSeed; rw [squeeze_len]
      obtain ⟨r, hr⟩ := signRep1_ok hI (shake f) sk (slice pk 0 I.ctSize) (aesSave I.aes.keySize sk (slice pk 0 I.ctSize)).2.2 (genSalt (shake f) I sk pk msg) (genSeed (shake f) I sk pk msg e) e hroot
      refine ⟨r, fun he => ?_⟩
      rw [getD_range_map _ _ _ _ he, signRep1_eq hv1 hv4 hI J hJ _ _ _ _ _ (by rw [hlsalt]; exact small_of (by norm_num)) hroot e, hr]
    choose g hg using this
    exact ⟨_, mapM_ok _ _ g fun e he => hg e (List.mem_range.1 he)⟩
  obtain ⟨reps, hreps⟩ := hreps
  rw [hreps, ok_bind, h _ _ hlsalt]
  rfl

/-- Verify only returns for signatures of the right shape. -/
theorem verifyWith_shaped (H : Hash) (J : Junk) (dummy : Bytes) (fuel : Nat) (F : FieldState) (I : Instance) (pk : Bytes) (sig : Signature) (msg : Bytes) (b : Bool)
    (hv : verifyWith H J dummy fuel F I pk sig msg = .ok b) : sig.shaped I = true := by
  have key : ∀ {α β : Type} (x : M α) (g : α → M β) (b : β), (x >>= g) = .ok b → ∃ a, x = .ok a ∧ g a = .ok b := by
    intro α β x g b h
    cases x with
    | error e => cases h
    | ok a => exact ⟨a, rfl, h⟩
  unfold verifyWith at hv
  obtain ⟨-, -, hv⟩ := key _ _ _ hv
  obtain ⟨-, -, hv⟩ := key _ _ _ hv
  obtain ⟨_, h, -⟩ := key _ _ _ hv
  cases hs : sig.shaped I with
  | true => rfl
  | false => rw [hs] at h; cases h

/-- Verify reaches the hash of the message whenever it returns for another message. -/
theorem verifyWith_long (H : Hash) (J : Junk) (dummy : Bytes) (fuel : Nat) (F : FieldState) (I : Instance) (pk : Bytes) (sig : Signature) (msg msg' : Bytes) (b : Bool)
    (hv : verifyWith H J dummy fuel F I pk sig msg = .ok b) {e : Err} (h : ∀ reps, phase1Commit H.one I sig.salt pk msg' reps = .error e) : verifyWith H J dummy fuel F I pk sig msg' = .error e := by
  have key : ∀ {α β : Type} (x : M α) (g g' : α → M β) (b : β), (x >>= g) = .ok b → (∀ a b, g a = .ok b → g' a = .error e) → (x >>= g') = .error e := by
    intro α β x g g' b h1 h2
    cases x with
    | error e => cases h1
    | ok a => exact h2 a b h1
  unfold verifyWith at hv ⊢
  refine key _ _ _ b hv fun _ b hv => key _ _ _ b hv fun _ b hv => key _ _ _ b hv fun _ b hv => ?_
  refine key _ _ _ b hv fun _ b hv => key _ _ _ b hv fun _ b hv => key _ _ _ b hv fun _ b hv => key _ _ _ b hv fun _ b hv => key _ _ _ b hv fun _ b hv => ?_
  refine key _ _ _ b hv fun _ b hv => ?_
  rw [h]
  rfl

end Code

end Banquet
