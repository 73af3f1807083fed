import Verif.Proofs.Api
import Verif.Props.Serialize
import Verif.Props.Field

/-! C21, C22 and the second half of C09: the public functions share the mutable globals of field.cpp. -/

namespace Banquet.Props

open Spec

/-- No call of the history has undefined behaviour. -/
def Clean (X : Xof) (fuel : Nat) : FieldState → List Call → Prop
  | _, [] => True
  | G, c :: cs => (runCall X fuel G c).1 ≠ .error .ub ∧ Clean X fuel (runCall X fuel G c).2 cs

/-- λ of the last initialisation in a history: an explicit one, or the one in sign and verify; `d` if there is none. Unsupported values throw and leave the globals as they are. -/
def lastInit (d : Nat) : List Call → Nat
  | [] => d
  | c :: cs =>
    let l : Option Nat := match c with
      | .init I => some I.lambda
      | .sign I _ _ _ => some I.lambda
      | .verify I _ _ _ => some I.lambda
      | _ => none
    lastInit (match l with | some l => if l = 2 ∨ l = 4 ∨ l = 5 ∨ l = 6 then l else d | none => d) cs

/-! ## C21 -/

/-- C21: after any two histories sign returns the same. -/
theorem C21_sign (X : Xof) (fuel : Nat) (cs cs' : List Call) (I : Instance) (sk pk msg : Bytes) :
    (runCall X fuel (runCalls X fuel .initial cs) (.sign I sk pk msg)).1 = (runCall X fuel (runCalls X fuel .initial cs') (.sign I sk pk msg)).1 := by
  have h := runCalls_lut X fuel cs .initial initial_lut
  have h' := runCalls_lut X fuel cs' .initial initial_lut
  simp only [runCall, initGlobals_eq _ h, initGlobals_eq _ h']
  cases initExtensionField I.lambda <;> rfl

/-- C21: after any two histories verify returns the same. -/
theorem C21_verify (X : Xof) (fuel : Nat) (cs cs' : List Call) (I : Instance) (pk : Bytes) (sig : Signature) (msg : Bytes) :
    (runCall X fuel (runCalls X fuel .initial cs) (.verify I pk sig msg)).1 = (runCall X fuel (runCalls X fuel .initial cs') (.verify I pk sig msg)).1 := by
  have h := runCalls_lut X fuel cs .initial initial_lut
  have h' := runCalls_lut X fuel cs' .initial initial_lut
  simp only [runCall, initGlobals_eq _ h, initGlobals_eq _ h']
  cases initExtensionField I.lambda <;> rfl

/-- C21: and these are the results of the functions `sign` and `verify` that the other properties are about. -/
theorem C21_model (X : Xof) (fuel : Nat) (cs : List Call) (I : Instance) :
    (∀ sk pk msg, (runCall X fuel (runCalls X fuel .initial cs) (.sign I sk pk msg)).1 = (sign X fuel I sk pk msg).map .signature) ∧
    (∀ pk sig msg, (runCall X fuel (runCalls X fuel .initial cs) (.verify I pk sig msg)).1 = (verify X fuel I pk sig msg).map .bool) := by
  have h := runCalls_lut X fuel cs .initial initial_lut
  constructor <;> intros <;> simp only [runCall, initGlobals_eq _ h, sign, verify] <;> cases initExtensionField I.lambda <;> rfl

/-- The histories matter: the globals after two histories differ. -/
example : runCalls onesXof 1 .initial [] ≠ runCalls onesXof 1 .initial [.init smallInstance] ∧
    (runCalls onesXof 1 .initial [.init smallInstance]).byteSize = 4 := by
  have : (runCalls onesXof 1 .initial [.init smallInstance]).byteSize = 4 := rfl
  exact ⟨fun h => absurd (congrArg FieldState.byteSize h) (by rw [this]; decide), this⟩

/-! ## C09, globals -/

/-- C09: an unsupported λ leaves the globals unchanged, and sign and verify throw whatever the globals are. -/
theorem C09_globals (X : Xof) (fuel : Nat) (G : FieldState) (I : Instance) (h : ¬Supported I.lambda) :
    runCall X fuel G (.init I) = (.error .thrown, G) ∧ (∀ sk pk msg, runCall X fuel G (.sign I sk pk msg) = (.error .thrown, G)) ∧
    (∀ pk sig msg, runCall X fuel G (.verify I pk sig msg) = (.error .thrown, G)) := by
  have hg : initGlobals G I.lambda = (.error .thrown, G) := by
    generalize I.lambda = l at h
    unfold initGlobals
    split
    · exact absurd (Or.inl rfl) h
    · exact absurd (Or.inr (Or.inl rfl)) h
    · exact absurd (Or.inr (Or.inr (Or.inl rfl))) h
    · exact absurd (Or.inr (Or.inr (Or.inr rfl))) h
    · rfl
  simp only [runCall, hg]
  exact ⟨rfl, fun _ _ _ => trivial, fun _ _ _ => trivial⟩

example : ¬Supported 3 := by unfold Supported; decide

/-! ## C22 -/

/-- C22: the claim: after any two histories serialize and deserialize return the same. -/
def C22_statement : Prop := ∀ (X : Xof) (fuel : Nat) (cs cs' : List Call), Clean X fuel .initial cs → Clean X fuel .initial cs' → ∀ I : Instance, Consistent I →
  (∀ s, (runCall X fuel (runCalls X fuel .initial cs) (.serialize I s)).1 = (runCall X fuel (runCalls X fuel .initial cs') (.serialize I s)).1) ∧
  (∀ bs, (runCall X fuel (runCalls X fuel .initial cs) (.deserialize I bs)).1 = (runCall X fuel (runCalls X fuel .initial cs') (.deserialize I bs)).1)

/-- The byte size after a history. -/
theorem byteSize_runCalls (X : Xof) (fuel : Nat) (cs : List Call) (G : FieldState) : (runCalls X fuel G cs).byteSize = lastInit G.byteSize cs := by
  have hi : ∀ (G : FieldState) (l : Nat), (initGlobals G l).2.byteSize = if l = 2 ∨ l = 4 ∨ l = 5 ∨ l = 6 then l else G.byteSize := by
    intro G l
    unfold initGlobals
    split <;> try rfl
    rename_i h2 h4 h5 h6
    rw [if_neg (by rintro (h | h | h | h) <;> [exact h2 h; exact h4 h; exact h5 h; exact h6 h])]
  induction cs generalizing G with
  | nil => rfl
  | cons c cs ih =>
    have e : runCalls X fuel G (c :: cs) = runCalls X fuel (runCall X fuel G c).2 cs := rfl
    rw [e, ih]
    cases c with
    | init I => simp only [lastInit, runCall, hi]
    | keygen I d => rfl
    | sign I sk pk msg =>
      have : (runCall X fuel G (.sign I sk pk msg)).2 = (initGlobals G I.lambda).2 := by simp only [runCall]; split <;> (rename_i h; rw [h])
      simp only [lastInit, this, hi]
    | verify I pk sig msg =>
      have : (runCall X fuel G (.verify I pk sig msg)).2 = (initGlobals G I.lambda).2 := by simp only [runCall]; split <;> (rename_i h; rw [h])
      simp only [lastInit, this, hi]
    | serialize I s => rfl
    | deserialize I bs => rfl

/-- C22 as far as it holds: serialize and deserialize return the same after two histories whose last initialisation had the same λ. Missing: other histories. -/
theorem C22_partial (X : Xof) (fuel : Nat) (cs cs' : List Call) (hl : lastInit 0 cs = lastInit 0 cs') (I : Instance) :
    (∀ s, (runCall X fuel (runCalls X fuel .initial cs) (.serialize I s)).1 = (runCall X fuel (runCalls X fuel .initial cs') (.serialize I s)).1) ∧
    (∀ bs, (runCall X fuel (runCalls X fuel .initial cs) (.deserialize I bs)).1 = (runCall X fuel (runCalls X fuel .initial cs') (.deserialize I bs)).1) := by
  have h : (runCalls X fuel .initial cs).byteSize = (runCalls X fuel .initial cs').byteSize := by
    rw [byteSize_runCalls, byteSize_runCalls]
    exact hl
  simp only [runCall]
  rw [serialize_congr h, deserialize_congr X fuel h]
  exact ⟨fun _ => rfl, fun _ => rfl⟩

/-- C22: after a history whose last initialisation was for λ of the instance they are the functions of C17, C18 and C35. -/
theorem C22_initialised (X : Xof) (fuel : Nat) (cs : List Call) (I : Instance) (hl : lastInit 0 cs = I.lambda) (F : FieldState) (hF : initExtensionField I.lambda = .ok F) :
    (∀ s, (runCall X fuel (runCalls X fuel .initial cs) (.serialize I s)).1 = (serialize F I s).map .bytes) ∧
    (∀ bs, (runCall X fuel (runCalls X fuel .initial cs) (.deserialize I bs)).1 = (deserialize X fuel F I bs).map .signature) := by
  have h : (runCalls X fuel .initial cs).byteSize = F.byteSize := by
    rw [byteSize_runCalls, (initExtensionField_ok hF).2.1]
    exact hl
  simp only [runCall]
  rw [serialize_congr h, deserialize_congr X fuel h]
  exact ⟨fun _ => rfl, fun _ => rfl⟩

example : lastInit 0 [.keygen smallInstance (fun _ => ([], [])), .verify smallInstance [] smallSig [], .init ⟨aes128Params, 32, 16, 1, 2, 10, 20, 3, 1⟩] = smallInstance.lambda ∧
    lastInit 0 [.init smallInstance] = smallInstance.lambda := by decide

/-- C22 does not hold: in a fresh process all field elements of a signature are decoded as 0 and encoded as nothing. -/
theorem C22_violated : ¬C22_statement := by
  intro h
  have h1 := (h onesXof 1 [] [.init smallInstance] trivial ⟨by rw [show (runCall onesXof 1 .initial (.init smallInstance)).1 = .ok .unit from rfl]; simp, trivial⟩ smallInstance small_consistent).2 (List.replicate 528 0xab)
  have h2 : ((runCall onesXof 1 (runCalls onesXof 1 .initial []) (.deserialize smallInstance (List.replicate 528 0xab))).1 =
      (runCall onesXof 1 (runCalls onesXof 1 .initial [.init smallInstance]) (.deserialize smallInstance (List.replicate 528 0xab))).1) → False := by
    have a : ((runCall onesXof 1 (runCalls onesXof 1 .initial []) (.deserialize smallInstance (List.replicate 528 0xab))).1.map fun
        | .signature s => s.proofs.map (·.pAtR) | _ => []) = .ok [0] := by decide +kernel
    have b : ((runCall onesXof 1 (runCalls onesXof 1 .initial [.init smallInstance]) (.deserialize smallInstance (List.replicate 528 0xab))).1.map fun
        | .signature s => s.proofs.map (·.pAtR) | _ => []) = .ok [0xabababab] := by decide +kernel
    intro e
    rw [e, b] at a
    exact absurd a (by decide)
  exact h2 h1

/-- An instance with a larger field. -/
def bigFieldInstance : Instance := ⟨aes128Params, 32, 16, 1, 2, 10, 20, 6, 1⟩

/-- C22: after using an instance with a larger λ decoding reads out of range. -/
theorem C22_outOfRange_violated (bs : Bytes) :
    (runCall onesXof 1 (runCalls onesXof 1 .initial [.init bigFieldInstance]) (.deserialize smallInstance bs)).1 = .error .ub := rfl

/-- Every element on the right of `Forall₂` has a partner. -/
theorem exists_of_forall₂ {α β : Type} {R : α → β → Prop} {l : List α} {r : List β} (h : List.Forall₂ R l r) : ∀ b ∈ r, ∃ a, R a b := by
  induction h with
  | nil => intro b hb; cases hb
  | cons h _ ih =>
    intro b hb
    rcases List.mem_cons.1 hb with rfl | hb
    · exact ⟨_, h⟩
    · exact ih b hb

/-- The instance with another λ. -/
def withLambda (I : Instance) (k : Nat) : Instance := { I with lambda := k }

/-- C22, exactly: after a history the encoding of a signature in the format is the right one if and only if the last initialisation was for λ of the instance. Otherwise already its length is wrong. -/
theorem C22_exact (X : Xof) (fuel : Nat) (cs : List Call) (I : Instance) (hc : Consistent I) (F : FieldState) (hF : initExtensionField I.lambda = .ok F)
    (s : Signature) (ms : List Nat) (hm : phase3Expand X fuel I s.h3 = .ok ms) (wf : SigWF I ms s) :
    (∃ b, (runCall X fuel (runCalls X fuel .initial cs) (.serialize I s)).1 = .ok (.bytes b) ∧ b.length = sigLength (withLambda I (lastInit 0 cs))) ∧
    ((runCall X fuel (runCalls X fuel .initial cs) (.serialize I s)).1 = (serialize F I s).map .bytes ↔ lastInit 0 cs = I.lambda) := by
  have hlen : s.proofs.length = I.numRounds := wf.proofs.length_eq.symm.trans (phase3Expand_spec X _ fuel I s.h3 ms hm).1
  have len : ∀ G : FieldState, (s.salt ++ s.h1 ++ s.h3 ++ s.proofs.flatMap (serializeProof G I)).length = sigLength (withLambda I G.byteSize) := by
    intro G
    have hp : ∀ p ∈ s.proofs, (serializeProof G I p).length = proofLength (withLambda I G.byteSize) := by
      intro p hp
      obtain ⟨m, w⟩ := exists_of_forall₂ wf.proofs p hp
      rw [serializeProof_eq w]
      have fl : ∀ l : List W64, ((l.map G.toBytes).flatten).length = l.length * G.byteSize := by
        intro l
        have := length_flatMap_const l G.toBytes G.byteSize (fun x _ => length_toBytes x)
        simpa [List.flatMap_def] using this
      simp only [List.length_append, flatten_length w.seeds, w.cE, w.skDelta, w.tDelta, fl, w.pDelta.1, w.sAtR.1, w.tAtR.1, length_toBytes]
      unfold proofLength withLambda
      ring
    simp only [List.length_append, wf.salt, wf.h1, wf.h3, length_flatMap_const _ _ _ hp, hlen]
    unfold sigLength withLambda
    ring
  have hb := byteSize_runCalls X fuel cs .initial
  refine ⟨⟨_, by simp only [runCall]; rw [serialize_ok X fuel hm wf]; rfl, by rw [len, hb]; rfl⟩, fun h => ?_, fun h => (C22_initialised X fuel cs I h F hF).1 s⟩
  simp only [runCall] at h
  rw [serialize_ok X fuel hm wf, serialize_ok X fuel hm wf] at h
  have h2 := congrArg List.length (Res.bytes.inj (Except.ok.inj h))
  rw [len, len, hb, (initExtensionField_ok hF).2.1] at h2
  have hr := hc.rounds.1
  unfold sigLength proofLength withLambda at h2
  dsimp only at h2
  have h3 := Nat.eq_of_mul_eq_mul_left (by omega : 0 < I.numRounds) (Nat.add_left_cancel h2)
  exact Nat.eq_of_mul_eq_mul_left (by omega) (Nat.add_left_cancel h3)

/-- C22: after a history that ended with a larger λ, decoding any string reads out of range. -/
theorem C22_longer (X : Xof) (fuel : Nat) (cs : List Call) (I : Instance) (hl : I.lambda < lastInit 0 cs) (bs : Bytes) :
    (runCall X fuel (runCalls X fuel .initial cs) (.deserialize I bs)).1 = .error .ub := by
  have hb : (runCalls X fuel .initial cs).byteSize = lastInit 0 cs := byteSize_runCalls X fuel cs .initial
  simp only [runCall, deserialize, deserializeRest, hb, decide_eq_false (Nat.not_le.2 hl)]
  rfl

/-- The lowest `k` bytes of a word. -/
def lowBytes (k : Nat) (x : W64) : W64 := BitVec.ofNat 64 (x.toNat % 2 ^ (8 * k))

/-- A signature with all field elements cut to `k` bytes. -/
def cutElements (k : Nat) (s : Signature) : Signature :=
  { s with proofs := s.proofs.map fun p => { p with pDelta := p.pDelta.map (lowBytes k), pAtR := lowBytes k p.pAtR, sAtR := p.sAtR.map (lowBytes k), tAtR := p.tAtR.map (lowBytes k) } }

/-- Reading fewer bytes. -/
theorem leWord_take (bs : Bytes) (h : bs.length ≤ 8) (k : Nat) : leWord (bs.take k) = lowBytes k (leWord bs) := by
  apply BitVec.eq_of_getLsbD_eq
  intro i hi
  rw [getLsbD_leWord _ (by rw [List.length_take]; omega)]
  unfold lowBytes
  rw [BitVec.getLsbD_ofNat, Nat.testBit_mod_two_pow, decide_eq_true hi, Bool.true_and, BitVec.testBit_toNat, getLsbD_leWord _ h, List.getD_eq_getElem?_getD, List.getElem?_take]
  by_cases hk : i < 8 * k
  · rw [if_pos (by omega), decide_eq_true hk, Bool.true_and, List.getD_eq_getElem?_getD]
  · rw [if_neg (by omega), decide_eq_false hk, Bool.false_and]
    simp

/-- Map after bind. -/
theorem bind_map_congr {α β γ : Type} (x : M α) {f : α → M γ} {g : α → M β} {h : β → γ} (e : ∀ a, f a = (g a).map h) : (x >>= f) = (x >>= g).map h := by
  cases x with
  | error _ => rfl
  | ok a => exact e a

/-- C22, exactly: after a history that did not end with a larger λ, decoding is right except that it cuts the field elements to the bytes of the last λ: in a fresh process to nothing. -/
theorem C22_cut (X : Xof) (fuel : Nat) (cs : List Call) (I : Instance) (F : FieldState) (hF : initExtensionField I.lambda = .ok F) (hl : lastInit 0 cs ≤ I.lambda) (bs : Bytes) :
    (runCall X fuel (runCalls X fuel .initial cs) (.deserialize I bs)).1 = (deserialize X fuel F I bs).map fun s => .signature (cutElements (lastInit 0 cs) s) := by
  have hb : (runCalls X fuel .initial cs).byteSize = lastInit 0 cs := byteSize_runCalls X fuel cs .initial
  have hFb := (initExtensionField_ok hF).2.1
  have h8 : I.lambda ≤ 8 := by
    rcases (initExtensionField_ok hF).2.2 with h | h | h | h <;> omega
  simp only [runCall]
  generalize runCalls X fuel .initial cs = G at hb ⊢
  generalize lastInit 0 cs = k at *
  have hfb : G.fromBytes = fun c => lowBytes k (F.fromBytes c) := by
    funext c
    unfold FieldState.fromBytes
    rw [hb, hFb, ← leWord_take _ (by rw [List.length_take]; omega), List.take_take, min_eq_left hl]
  let cut : Proof → Proof := fun p => { p with pDelta := p.pDelta.map (lowBytes k), pAtR := lowBytes k p.pAtR, sAtR := p.sAtR.map (lowBytes k), tAtR := p.tAtR.map (lowBytes k) }
  have ep : ∀ m bs, deserializeProof G I m bs = (deserializeProof F I m bs).map fun r => (cut r.1, r.2) := by
    intro m bs
    unfold deserializeProof
    simp only [hfb]
    iterate 8 refine bind_map_congr _ fun _ => ?_
    simp only [Except.map, cut, List.map_map]
    rfl
  have eps : ∀ ms bs, deserializeProofs G I ms bs = (deserializeProofs F I ms bs).map fun r => (r.1.map cut, r.2) := by
    intro ms
    induction ms with
    | nil => intro bs; rfl
    | cons m ms ih =>
      intro bs
      unfold deserializeProofs
      rw [ep]
      cases deserializeProof F I m bs with
      | error e => rfl
      | ok r =>
        change (deserializeProofs G I ms r.2 >>= fun q => Except.ok (cut r.1 :: q.1, q.2)) = _
        rw [ih]
        change _ = (deserializeProofs F I ms r.2 >>= fun q => Except.ok (r.1 :: q.1, q.2)).map _
        cases deserializeProofs F I ms r.2 <;> rfl
  have er : deserializeRest X fuel G I bs = (deserializeRest X fuel F I bs).map fun r => (cutElements k r.1, r.2) := by
    unfold deserializeRest
    rw [hb, hFb, decide_eq_true hl, decide_eq_true (Nat.le_refl _)]
    iterate 5 refine bind_map_congr _ fun _ => ?_
    rw [eps]
    rename_i ms
    cases deserializeProofs F I ms _ <;> rfl
  unfold deserialize
  rw [er]
  cases deserializeRest X fuel F I bs <;> rfl

/-- The hypotheses of `C22_exact`, `C22_longer` and `C22_cut`; and a signature that decoding in a fresh process changes. -/
example : (∃ s ms, phase3Expand onesXof 1 smallInstance s.h3 = .ok ms ∧ SigWF smallInstance ms s ∧ cutElements (lastInit 0 []) s ≠ s) ∧
    smallInstance.lambda < lastInit 0 [.init bigFieldInstance] ∧ lastInit 0 [] ≤ smallInstance.lambda := by
  refine ⟨⟨smallSig, [1], by decide +kernel, smallSig_wf, fun h => ?_⟩, by decide, by decide⟩
  have := congrArg (fun s => s.proofs.map (·.pAtR)) h
  revert this
  decide +kernel

end Banquet.Props
