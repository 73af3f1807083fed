import Verif.Proofs.Hash
import Verif.Spec.WellFormed

/-! Serialization and deserialization. -/

namespace Banquet

open Spec FieldOk

set_option linter.unusedSectionVars false

theorem bind_ok {α β : Type} {x : M α} {f : α → M β} {b : β} : (x >>= f) = .ok b ↔ ∃ a, x = .ok a ∧ f a = .ok b := by
  cases x with
  | error e =>
    constructor
    · intro h; cases h
    · rintro ⟨_, h, _⟩; cases h
  | ok a => exact ⟨fun h => ⟨a, rfl, h⟩, fun ⟨a', h, h'⟩ => by injection h with h; subst h; exact h'⟩

theorem takeBytes_iff {n : Nat} {bs a r : Bytes} : takeBytes n bs = .ok (a, r) ↔ a.length = n ∧ bs = a ++ r := by
  unfold takeBytes
  split
  · rename_i h
    constructor
    · intro hc; cases hc
    · rintro ⟨rfl, rfl⟩
      rw [List.length_append] at h
      omega
  · rename_i h
    constructor
    · intro he
      have he : (bs.take n, bs.drop n) = (a, r) := by injection he
      have h1 : bs.take n = a := congrArg Prod.fst he
      have h2 : bs.drop n = r := congrArg Prod.snd he
      subst h1 h2
      exact ⟨by rw [List.length_take]; omega, (List.take_append_drop n bs).symm⟩
    · rintro ⟨rfl, rfl⟩
      rw [List.take_left' rfl, List.drop_left' rfl]

theorem takeChunks_iff {n c : Nat} {bs : Bytes} {l : List Bytes} {r : Bytes} :
    takeChunks n c bs = .ok (l, r) ↔ (l.length = c ∧ ∀ x ∈ l, x.length = n) ∧ bs = l.flatten ++ r := by
  induction c generalizing bs l r with
  | zero =>
    rw [takeChunks]
    constructor
    · intro h
      have h : (([] : List Bytes), bs) = (l, r) := by injection h
      have h1 : [] = l := congrArg Prod.fst h
      have h2 : bs = r := congrArg Prod.snd h
      subst h1 h2
      simp
    · rintro ⟨⟨h1, _⟩, h2⟩
      have h1 := List.length_eq_zero_iff.1 h1
      subst h1
      rw [h2]; rfl
  | succ c ih =>
    rw [takeChunks, bind_ok]
    constructor
    · rintro ⟨⟨a, b⟩, h1, h2⟩
      obtain ⟨h3, h4⟩ := takeBytes_iff.1 h1
      obtain ⟨⟨l', r'⟩, h5, h6⟩ := bind_ok.1 h2
      obtain ⟨⟨h7, h8⟩, h9⟩ := ih.1 h5
      have h6 := Except.ok.inj h6
      have e1 : a :: l' = l := congrArg Prod.fst h6
      have e2 : r' = r := congrArg Prod.snd h6
      subst e1 e2
      refine ⟨⟨by simp [h7], ?_⟩, ?_⟩
      · intro x hx
        rcases List.mem_cons.1 hx with rfl | hx
        · exact h3
        · exact h8 x hx
      · rw [h4, h9, List.flatten_cons, List.append_assoc]
    · rintro ⟨⟨h1, h2⟩, h3⟩
      cases l with
      | nil => simp at h1
      | cons a l =>
        refine ⟨(a, l.flatten ++ r), takeBytes_iff.2 ⟨h2 a (by simp), by rw [h3, List.flatten_cons, List.append_assoc]⟩, ?_⟩
        exact bind_ok.2 ⟨(l, r), ih.2 ⟨⟨by simpa using h1, fun x hx => h2 x (by simp [hx])⟩, rfl⟩, rfl⟩

theorem range_flatMap_getD (f : W64 → Bytes) (l : List W64) (n : Nat) (h : l.length = n) : (List.range n).flatMap (fun k => f (l.getD k 0)) = (l.map f).flatten := by
  conv_rhs => rw [eq_range_map l n 0 h]
  rw [List.map_map, List.flatMap_def]
  rfl

section
variable {F : FieldState} [hF : FieldOk F]

/-- Chunks of `lambda` bytes and the field elements they encode. -/
theorem chunks_elements (n : Nat) (cs : List Bytes) (l : List W64) :
    ((cs.length = n ∧ ∀ x ∈ cs, x.length = F.byteSize) ∧ cs.map F.fromBytes = l) ↔ (Elements F.byteSize n l ∧ cs = l.map F.toBytes) := by
  constructor
  · rintro ⟨⟨h1, h2⟩, rfl⟩
    refine ⟨⟨by simp [h1], ?_⟩, ?_⟩
    · intro x hx
      obtain ⟨c, _, rfl⟩ := List.mem_map.1 hx
      exact reduced_fromBytes c
    · rw [List.map_map]
      conv_lhs => rw [← List.map_id cs]
      apply List.map_congr_left
      intro c hc
      exact (toBytes_fromBytes (h2 c hc)).symm
  · rintro ⟨⟨h1, h2⟩, rfl⟩
    refine ⟨⟨by simp [h1], ?_⟩, ?_⟩
    · intro x hx
      obtain ⟨c, _, rfl⟩ := List.mem_map.1 hx
      exact length_toBytes c
    · rw [List.map_map]
      conv_rhs => rw [← List.map_id l]
      apply List.map_congr_left
      intro c hc
      exact fromBytes_toBytes (h2 c hc)

theorem chunk_element (c : Bytes) (x : W64) : (c.length = F.byteSize ∧ F.fromBytes c = x) ↔ (Reduced F.byteSize x ∧ c = F.toBytes x) := by
  constructor
  · rintro ⟨h, rfl⟩
    exact ⟨reduced_fromBytes c, (toBytes_fromBytes h).symm⟩
  · rintro ⟨h, rfl⟩
    exact ⟨length_toBytes x, fromBytes_toBytes h⟩

variable {I : Instance}

omit hF in
theorem serializeProof_eq {m : Nat} {p : Proof} (h : ProofWF I m p) : serializeProof F I p =
    p.reveal.seeds.flatten ++ (p.cE ++ (p.skDelta ++ (p.tDelta ++ ((p.pDelta.map F.toBytes).flatten ++ (F.toBytes p.pAtR ++ ((p.sAtR.map F.toBytes).flatten ++ (p.tAtR.map F.toBytes).flatten)))))) := by
  unfold serializeProof
  rw [range_flatMap_getD _ _ _ h.pDelta.1, range_flatMap_getD _ _ _ h.sAtR.1, range_flatMap_getD _ _ _ h.tAtR.1]
  simp only [List.append_assoc]

theorem deserializeProof_iff (hl : F.byteSize = I.lambda) (hN : I.numParties < 2 ^ 32) {m : Nat} {p : Proof} {bs r : Bytes} :
    deserializeProof F I m bs = .ok (p, r) ↔ ProofWF I m p ∧ bs = serializeProof F I p ++ r := by
  have hcl : ceilLog2 I.numParties = Nat.clog 2 I.numParties := ceilLog2_eq _ hN
  constructor
  · intro h
    unfold deserializeProof at h
    obtain ⟨⟨seeds, b1⟩, h1, h⟩ := bind_ok.1 h
    obtain ⟨⟨cE, b2⟩, h2, h⟩ := bind_ok.1 h
    obtain ⟨⟨sk, b3⟩, h3, h⟩ := bind_ok.1 h
    obtain ⟨⟨td, b4⟩, h4, h⟩ := bind_ok.1 h
    obtain ⟨⟨pd, b5⟩, h5, h⟩ := bind_ok.1 h
    obtain ⟨⟨pr, b6⟩, h6, h⟩ := bind_ok.1 h
    obtain ⟨⟨sr, b7⟩, h7, h⟩ := bind_ok.1 h
    obtain ⟨⟨tr, b8⟩, h8, hz⟩ := bind_ok.1 h
    obtain ⟨g1, rfl⟩ := takeChunks_iff.1 h1
    obtain ⟨g2, rfl⟩ := takeBytes_iff.1 h2
    obtain ⟨g3, rfl⟩ := takeBytes_iff.1 h3
    obtain ⟨g4, rfl⟩ := takeBytes_iff.1 h4
    obtain ⟨g5, rfl⟩ := takeChunks_iff.1 h5
    obtain ⟨g6, rfl⟩ := takeBytes_iff.1 h6
    obtain ⟨g7, rfl⟩ := takeChunks_iff.1 h7
    obtain ⟨g8, rfl⟩ := takeChunks_iff.1 h8
    have h := Except.ok.inj hz
    have e1 := congrArg Prod.fst h
    have e2 : b8 = r := congrArg Prod.snd h
    simp only at e1
    subst e1 e2
    rw [← hl] at g5 g6 g7 g8
    obtain ⟨f5, k5⟩ := (chunks_elements (F := F) _ pd _).1 ⟨g5, rfl⟩
    obtain ⟨f6, k6⟩ := (chunk_element (F := F) pr _).1 ⟨g6, rfl⟩
    obtain ⟨f7, k7⟩ := (chunks_elements (F := F) _ sr _).1 ⟨g7, rfl⟩
    obtain ⟨f8, k8⟩ := (chunks_elements (F := F) _ tr _).1 ⟨g8, rfl⟩
    rw [hcl] at g1
    have wf : ProofWF I m ⟨⟨seeds, m⟩, cE, sk, td, pd.map F.fromBytes, F.fromBytes pr, sr.map F.fromBytes, tr.map F.fromBytes⟩ :=
      ⟨rfl, g1, g2, g3, g4, hl ▸ f5, hl ▸ f6, hl ▸ f7, hl ▸ f8⟩
    refine ⟨wf, ?_⟩
    rw [serializeProof_eq wf]
    dsimp only
    rw [← k5, ← k6, ← k7, ← k8]
    simp only [List.append_assoc]
  · rintro ⟨wf, rfl⟩
    rw [serializeProof_eq wf]
    have c5 := (chunks_elements (F := F) _ _ _).2 ⟨hl ▸ wf.pDelta, rfl⟩
    have c6 := (chunk_element (F := F) _ _).2 ⟨hl ▸ wf.pAtR, rfl⟩
    have c7 := (chunks_elements (F := F) _ _ _).2 ⟨hl ▸ wf.sAtR, rfl⟩
    have c8 := (chunks_elements (F := F) _ _ _).2 ⟨hl ▸ wf.tAtR, rfl⟩
    have s1 := wf.seeds
    rw [← hcl] at s1
    unfold deserializeProof
    simp only [List.append_assoc]
    refine bind_ok.2 ⟨_, takeChunks_iff.2 ⟨s1, rfl⟩, ?_⟩
    refine bind_ok.2 ⟨_, takeBytes_iff.2 ⟨wf.cE, rfl⟩, ?_⟩
    refine bind_ok.2 ⟨_, takeBytes_iff.2 ⟨wf.skDelta, rfl⟩, ?_⟩
    refine bind_ok.2 ⟨_, takeBytes_iff.2 ⟨wf.tDelta, rfl⟩, ?_⟩
    refine bind_ok.2 ⟨_, takeChunks_iff.2 ⟨hl ▸ c5.1, rfl⟩, ?_⟩
    refine bind_ok.2 ⟨_, takeBytes_iff.2 ⟨hl ▸ c6.1, rfl⟩, ?_⟩
    refine bind_ok.2 ⟨_, takeChunks_iff.2 ⟨hl ▸ c7.1, rfl⟩, ?_⟩
    refine bind_ok.2 ⟨_, takeChunks_iff.2 ⟨hl ▸ c8.1, rfl⟩, ?_⟩
    dsimp only
    rw [c5.2, c6.2, c7.2, c8.2, ← wf.missing]

theorem flatten_length {l : List Bytes} {n k : Nat} (h : l.length = n ∧ ∀ x ∈ l, x.length = k) : l.flatten.length = n * k := by
  have := length_flatMap_const l id k (fun x hx => h.2 x hx)
  rw [h.1] at this
  simpa [List.flatMap_def] using this

theorem serializeProof_length (hl : F.byteSize = I.lambda) {m : Nat} {p : Proof} (wf : ProofWF I m p) : (serializeProof F I p).length = proofLength I := by
  have c5 := (chunks_elements (F := F) _ _ _).2 ⟨hl ▸ wf.pDelta, rfl⟩
  have c7 := (chunks_elements (F := F) _ _ _).2 ⟨hl ▸ wf.sAtR, rfl⟩
  have c8 := (chunks_elements (F := F) _ _ _).2 ⟨hl ▸ wf.tAtR, rfl⟩
  rw [serializeProof_eq wf]
  simp only [List.length_append, flatten_length wf.seeds, wf.cE, wf.skDelta, wf.tDelta, flatten_length c5.1, flatten_length c7.1, flatten_length c8.1, length_toBytes]
  unfold proofLength
  rw [hl]
  ring

theorem deserializeProofs_iff (hl : F.byteSize = I.lambda) (hN : I.numParties < 2 ^ 32) {ms : List Nat} {ps : List Proof} {bs r : Bytes} :
    deserializeProofs F I ms bs = .ok (ps, r) ↔ List.Forall₂ (ProofWF I) ms ps ∧ bs = ps.flatMap (serializeProof F I) ++ r := by
  induction ms generalizing bs ps r with
  | nil =>
    rw [deserializeProofs]
    constructor
    · intro h
      have h : (([] : List Proof), bs) = (ps, r) := by injection h
      have h1 : [] = ps := congrArg Prod.fst h
      have h2 : bs = r := congrArg Prod.snd h
      subst h1 h2
      exact ⟨List.Forall₂.nil, rfl⟩
    · rintro ⟨h1, h2⟩
      cases h1
      rw [h2]; rfl
  | cons m ms ih =>
    rw [deserializeProofs, bind_ok]
    constructor
    · rintro ⟨⟨p, b⟩, h1, h2⟩
      obtain ⟨⟨ps', r'⟩, h3, h4⟩ := bind_ok.1 h2
      obtain ⟨w1, rfl⟩ := (deserializeProof_iff hl hN).1 h1
      obtain ⟨w2, rfl⟩ := ih.1 h3
      have h4 := Except.ok.inj h4
      have e1 : p :: ps' = ps := congrArg Prod.fst h4
      have e2 : r' = r := congrArg Prod.snd h4
      subst e1 e2
      exact ⟨List.Forall₂.cons w1 w2, by rw [List.flatMap_cons, List.append_assoc]⟩
    · rintro ⟨h1, rfl⟩
      cases h1 with
      | cons w1 w2 =>
        rename_i p ps
        refine ⟨(p, ps.flatMap (serializeProof F I) ++ r), (deserializeProof_iff hl hN).2 ⟨w1, by rw [List.flatMap_cons, List.append_assoc]⟩, ?_⟩
        exact bind_ok.2 ⟨(ps, r), ih.2 ⟨w2, rfl⟩, rfl⟩

/-- Deserialization, exactly: it returns the signature and the rest if and only if the input is the encoding of the signature followed by the rest and the signature is in the format of the instance. -/
theorem deserializeRest_iff (X : Xof) (fuel : Nat) (hl : F.byteSize = I.lambda) (hN : I.numParties < 2 ^ 32) {s : Signature} {bs r : Bytes} :
    deserializeRest X fuel F I bs = .ok (s, r) ↔
      ∃ ms, phase3Expand X fuel I s.h3 = .ok ms ∧ SigWF I ms s ∧ bs = s.salt ++ s.h1 ++ s.h3 ++ s.proofs.flatMap (serializeProof F I) ++ r := by
  unfold deserializeRest
  have hg : require .ub (decide (F.byteSize ≤ I.lambda)) = .ok () := by
    rw [decide_eq_true (by omega)]; rfl
  constructor
  · intro h
    obtain ⟨_, _, h⟩ := bind_ok.1 h
    obtain ⟨⟨salt, b1⟩, h1, h⟩ := bind_ok.1 h
    obtain ⟨⟨hh1, b2⟩, h2, h⟩ := bind_ok.1 h
    obtain ⟨⟨hh3, b3⟩, h3, h⟩ := bind_ok.1 h
    obtain ⟨ms, h4, h⟩ := bind_ok.1 h
    obtain ⟨⟨ps, b5⟩, h5, hz⟩ := bind_ok.1 h
    obtain ⟨g1, rfl⟩ := takeBytes_iff.1 h1
    obtain ⟨g2, rfl⟩ := takeBytes_iff.1 h2
    obtain ⟨g3, rfl⟩ := takeBytes_iff.1 h3
    obtain ⟨w, rfl⟩ := (deserializeProofs_iff hl hN).1 h5
    have h := Except.ok.inj hz
    have e1 := congrArg Prod.fst h
    have e2 : b5 = r := congrArg Prod.snd h
    simp only at e1
    subst e1 e2
    exact ⟨ms, h4, ⟨g1, g2, g3, w⟩, by simp only [List.append_assoc]⟩
  · rintro ⟨ms, h1, w, rfl⟩
    simp only [List.append_assoc]
    refine bind_ok.2 ⟨_, hg, ?_⟩
    refine bind_ok.2 ⟨_, takeBytes_iff.2 ⟨w.salt, rfl⟩, ?_⟩
    refine bind_ok.2 ⟨_, takeBytes_iff.2 ⟨w.h1, rfl⟩, ?_⟩
    refine bind_ok.2 ⟨_, takeBytes_iff.2 ⟨w.h3, rfl⟩, ?_⟩
    refine bind_ok.2 ⟨ms, h1, ?_⟩
    refine bind_ok.2 ⟨_, (deserializeProofs_iff hl hN).2 ⟨w.proofs, rfl⟩, ?_⟩
    rfl

omit hF in
theorem serialize_ok (X : Xof) (fuel : Nat) {s : Signature} {ms : List Nat} (hm : phase3Expand X fuel I s.h3 = .ok ms) (wf : SigWF I ms s) :
    serialize F I s = .ok (s.salt ++ s.h1 ++ s.h3 ++ s.proofs.flatMap (serializeProof F I)) := by
  have hlen : s.proofs.length = I.numRounds := wf.proofs.length_eq.symm.trans (phase3Expand_spec X _ fuel I s.h3 ms hm).1
  have hall : ∀ p ∈ s.proofs, ∃ m, ProofWF I m p := by
    have : ∀ {ms : List Nat} {ps : List Proof}, List.Forall₂ (ProofWF I) ms ps → ∀ p ∈ ps, ∃ m, ProofWF I m p := by
      intro ms ps h
      induction h with
      | nil => intro p hp; cases hp
      | cons h _ ih =>
        intro p hp
        rcases List.mem_cons.1 hp with rfl | hp
        · exact ⟨_, h⟩
        · exact ih p hp
    exact this wf.proofs
  unfold serialize
  rw [← hlen, List.take_length]
  have hg1 : require .ub (decide (s.proofs.length ≤ s.proofs.length)) = .ok () := by simp [require]
  have hg2 : require .ub (s.proofs.all fun p => decide (I.m2 + 1 ≤ p.pDelta.length) && decide (I.m1 ≤ p.sAtR.length) && decide (I.m1 ≤ p.tAtR.length)) = .ok () := by
    have : (s.proofs.all fun p => decide (I.m2 + 1 ≤ p.pDelta.length) && decide (I.m1 ≤ p.sAtR.length) && decide (I.m1 ≤ p.tAtR.length)) = true := by
      rw [List.all_eq_true]
      intro p hp
      obtain ⟨m, w⟩ := hall p hp
      simp [w.pDelta.1, w.sAtR.1, w.tAtR.1]
    rw [this]; rfl
  rw [hg1, hg2]
  rfl

theorem flatMap_serialize_length (hl : F.byteSize = I.lambda) {ms : List Nat} {ps : List Proof} (h : List.Forall₂ (ProofWF I) ms ps) :
    (ps.flatMap (serializeProof F I)).length = ps.length * proofLength I := by
  induction h with
  | nil => simp
  | cons h _ ih =>
    rw [List.flatMap_cons, List.length_append, serializeProof_length hl h, ih, List.length_cons]
    ring

theorem encoded_length (X : Xof) (fuel : Nat) (hl : F.byteSize = I.lambda) {s : Signature} {ms : List Nat} (hm : phase3Expand X fuel I s.h3 = .ok ms) (wf : SigWF I ms s) :
    (s.salt ++ s.h1 ++ s.h3 ++ s.proofs.flatMap (serializeProof F I)).length = sigLength I := by
  have hlen : s.proofs.length = I.numRounds := wf.proofs.length_eq.symm.trans (phase3Expand_spec X _ fuel I s.h3 ms hm).1
  simp only [List.length_append, wf.salt, wf.h1, wf.h3, flatMap_serialize_length hl wf.proofs, hlen]
  unfold sigLength
  ring

end

/-! Totality: what deserialization does with a string of a given length. -/

theorem takeBytes_total {n : Nat} {bs : Bytes} (h : n ≤ bs.length) : takeBytes n bs = .ok (bs.take n, bs.drop n) := by
  unfold takeBytes; rw [if_neg (by omega)]

theorem takeBytes_short {n : Nat} {bs : Bytes} (h : bs.length < n) : takeBytes n bs = .error .ub := by
  unfold takeBytes; rw [if_pos h]

/-- `c` reads of `n` bytes succeed when the bytes are there, otherwise the read is out of range. -/
theorem takeChunks_total {n c : Nat} {bs : Bytes} (h : c * n ≤ bs.length) : ∃ l r, takeChunks n c bs = .ok (l, r) ∧ r.length = bs.length - c * n := by
  induction c generalizing bs with
  | zero => exact ⟨[], bs, rfl, by simp⟩
  | succ c ih =>
    have h' : (c + 1) * n = c * n + n := by ring
    rw [takeChunks, takeBytes_total (by omega)]
    obtain ⟨l, r, e, hr⟩ := ih (bs := bs.drop n) (by rw [List.length_drop]; omega)
    refine ⟨bs.take n :: l, r, ?_, by rw [hr, List.length_drop]; omega⟩
    exact bind_ok.2 ⟨_, rfl, bind_ok.2 ⟨_, e, rfl⟩⟩

theorem takeChunks_short {n c : Nat} {bs : Bytes} (h : bs.length < c * n) : takeChunks n c bs = .error .ub := by
  induction c generalizing bs with
  | zero => omega
  | succ c ih =>
    have h' : (c + 1) * n = c * n + n := by ring
    rw [takeChunks]
    by_cases hb : bs.length < n
    · rw [takeBytes_short hb]; rfl
    · rw [takeBytes_total (by omega)]
      show (takeChunks n c (bs.drop n) >>= _) = _
      rw [ih (by rw [List.length_drop]; omega)]
      rfl

section
variable (F : FieldState) (I : Instance)

/-- Either the bytes are there and the read succeeds, or it is out of range. -/
def Reads {α : Type} (f : Bytes → M (α × Bytes)) (n : Nat) : Prop :=
  ∀ bs, (n ≤ bs.length → ∃ a r, f bs = .ok (a, r) ∧ r.length = bs.length - n) ∧ (bs.length < n → f bs = .error .ub)

theorem reads_bytes (n : Nat) : Reads (takeBytes n) n := fun _ =>
  ⟨fun h => ⟨_, _, takeBytes_total h, List.length_drop ..⟩, takeBytes_short⟩

theorem reads_chunks (n c : Nat) : Reads (takeChunks n c) (c * n) := fun _ => ⟨takeChunks_total, takeChunks_short⟩

theorem reads_pure {α : Type} (a : α) : Reads (fun bs => .ok (a, bs)) 0 := fun bs => ⟨fun _ => ⟨a, bs, rfl, by omega⟩, fun h => by omega⟩

theorem reads_bind {α β : Type} {f : Bytes → M (α × Bytes)} {g : α × Bytes → M (β × Bytes)} {n m : Nat} (hf : Reads f n) (hg : ∀ a, Reads (fun bs => g (a, bs)) m) :
    Reads (fun bs => f bs >>= g) (n + m) := by
  intro bs
  constructor
  · intro h
    obtain ⟨a, r, e, hr⟩ := (hf bs).1 (by omega)
    obtain ⟨b, r', e', hr'⟩ := (hg a r).1 (by omega)
    exact ⟨b, r', bind_ok.2 ⟨_, e, e'⟩, by omega⟩
  · intro h
    by_cases hn : n ≤ bs.length
    · obtain ⟨a, r, e, hr⟩ := (hf bs).1 hn
      dsimp only
      rw [e]
      exact (hg a r).2 (by omega)
    · dsimp only
      rw [(hf bs).2 (by omega)]; rfl

theorem reads_proof (m : Nat) (hN : I.numParties < 2 ^ 32) : Reads (deserializeProof F I m) (proofLength I) := by
  have hcl : ceilLog2 I.numParties = Nat.clog 2 I.numParties := ceilLog2_eq _ hN
  have e : proofLength I = Nat.clog 2 I.numParties * I.seedSize + (I.digestSize + (I.aes.keySize + (I.aes.numSboxes + ((I.m2 + 1) * I.lambda + (I.lambda + (I.m1 * I.lambda + (I.m1 * I.lambda + 0))))))) := by
    unfold proofLength; ring
  rw [e, ← hcl]
  unfold deserializeProof
  refine reads_bind (reads_chunks _ _) fun seeds => ?_
  refine reads_bind (reads_bytes _) fun cE => ?_
  refine reads_bind (reads_bytes _) fun sk => ?_
  refine reads_bind (reads_bytes _) fun td => ?_
  refine reads_bind (reads_chunks _ _) fun pd => ?_
  refine reads_bind (reads_bytes _) fun pr => ?_
  refine reads_bind (reads_chunks _ _) fun sr => ?_
  refine reads_bind (reads_chunks _ _) fun tr => ?_
  exact reads_pure _

theorem reads_proofs (ms : List Nat) (hN : I.numParties < 2 ^ 32) : Reads (deserializeProofs F I ms) (ms.length * proofLength I) := by
  induction ms with
  | nil =>
    have := reads_pure ([] : List Proof)
    rw [List.length_nil, Nat.zero_mul]
    exact this
  | cons m ms ih =>
    have e : (m :: ms).length * proofLength I = proofLength I + (ms.length * proofLength I + 0) := by rw [List.length_cons]; ring
    rw [e]
    show Reads (fun bs => deserializeProofs F I (m :: ms) bs) _
    unfold deserializeProofs
    exact reads_bind (reads_proof F I m hN) fun p => reads_bind ih fun ps => reads_pure _

end

/-- Deserialization of a string: out of range if it is too short and the hidden parties can be computed; otherwise a signature, with the rest not read. -/
theorem deserializeRest_total (X : Xof) (fuel : Nat) (F : FieldState) (I : Instance) (hl : F.byteSize ≤ I.lambda) (hN : I.numParties < 2 ^ 32) (bs : Bytes) :
    (bs.length < 32 + 2 * I.digestSize → deserializeRest X fuel F I bs = .error .ub) ∧
    (32 + 2 * I.digestSize ≤ bs.length → ∀ ms, phase3Expand X fuel I (slice bs (32 + I.digestSize) I.digestSize) = .ok ms →
      (sigLength I ≤ bs.length → ∃ s r, deserializeRest X fuel F I bs = .ok (s, r) ∧ r.length = bs.length - sigLength I ∧ s.h3 = slice bs (32 + I.digestSize) I.digestSize) ∧
      (bs.length < sigLength I → deserializeRest X fuel F I bs = .error .ub)) ∧
    (32 + 2 * I.digestSize ≤ bs.length → phase3Expand X fuel I (slice bs (32 + I.digestSize) I.digestSize) = .error .fuel → deserializeRest X fuel F I bs = .error .fuel) := by
  have hg : require .ub (decide (F.byteSize ≤ I.lambda)) = .ok () := by
    rw [decide_eq_true hl]; rfl
  unfold deserializeRest
  rw [hg]
  refine ⟨?_, ?_, ?_⟩
  · intro h
    show (takeBytes 32 bs >>= _) = _
    by_cases h1 : bs.length < 32
    · rw [takeBytes_short h1]; rfl
    rw [takeBytes_total (by omega)]
    show (takeBytes _ (bs.drop 32) >>= _) = _
    by_cases h2 : bs.length < 32 + I.digestSize
    · rw [takeBytes_short (by rw [List.length_drop]; omega)]; rfl
    rw [takeBytes_total (by rw [List.length_drop]; omega)]
    show (takeBytes _ ((bs.drop 32).drop _) >>= _) = _
    rw [takeBytes_short (by rw [List.length_drop, List.length_drop]; omega)]
    rfl
  · intro h ms hms
    have hlen := (phase3Expand_spec X _ fuel I _ ms hms).1
    show _ ∧ _
    have run : (do
        let __discr ← takeBytes 32 bs
        match __discr with
        | (salt, bs) => do
          let __discr ← takeBytes I.digestSize bs
          match __discr with
          | (h1, bs) => do
            let __discr ← takeBytes I.digestSize bs
            match __discr with
            | (h3, bs) => do
              let missing ← phase3Expand X fuel I h3
              let __discr ← deserializeProofs F I missing bs
              match __discr with
              | (proofs, bs) => (.ok (⟨salt, h1, h3, proofs⟩, bs) : M (Signature × Bytes))) =
        (deserializeProofs F I ms (bs.drop (32 + 2 * I.digestSize)) >>= fun x => .ok (⟨bs.take 32, slice bs 32 I.digestSize, slice bs (32 + I.digestSize) I.digestSize, x.1⟩, x.2)) := by
      rw [takeBytes_total (by omega)]
      show (takeBytes _ (bs.drop 32) >>= _) = _
      rw [takeBytes_total (by rw [List.length_drop]; omega)]
      show (takeBytes _ ((bs.drop 32).drop _) >>= _) = _
      rw [takeBytes_total (by rw [List.length_drop, List.length_drop]; omega)]
      show (phase3Expand X fuel I (((bs.drop 32).drop _).take _) >>= _) = _
      rw [show ((bs.drop 32).drop I.digestSize).take I.digestSize = slice bs (32 + I.digestSize) I.digestSize by unfold slice; rw [List.drop_drop], hms]
      show (deserializeProofs F I ms (((bs.drop 32).drop _).drop _) >>= _) = _
      rw [List.drop_drop, List.drop_drop, show 32 + (I.digestSize + I.digestSize) = 32 + 2 * I.digestSize by ring]
      rfl
    have rd := reads_proofs F I ms hN (bs.drop (32 + 2 * I.digestSize))
    rw [List.length_drop, hlen] at rd
    unfold sigLength
    constructor
    · intro hb
      obtain ⟨ps, r, e, hr⟩ := rd.1 (by omega)
      refine ⟨⟨bs.take 32, slice bs 32 I.digestSize, slice bs (32 + I.digestSize) I.digestSize, ps⟩, r, ?_, by omega, rfl⟩
      refine run.trans ?_
      rw [e]; rfl
    · intro hb
      refine run.trans ?_
      rw [rd.2 (by omega)]; rfl
  · intro h hms
    show (takeBytes 32 bs >>= _) = _
    rw [takeBytes_total (by omega)]
    show (takeBytes _ (bs.drop 32) >>= _) = _
    rw [takeBytes_total (by rw [List.length_drop]; omega)]
    show (takeBytes _ ((bs.drop 32).drop _) >>= _) = _
    rw [takeBytes_total (by rw [List.length_drop, List.length_drop]; omega)]
    show (phase3Expand X fuel I (((bs.drop 32).drop _).take _) >>= _) = _
    rw [show ((bs.drop 32).drop I.digestSize).take I.digestSize = slice bs (32 + I.digestSize) I.digestSize by unfold slice; rw [List.drop_drop], hms]
    rfl

end Banquet
