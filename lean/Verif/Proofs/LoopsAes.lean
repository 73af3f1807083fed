import Verif.Proofs.LoopsBase
import Verif.Proofs.SignFull
import Verif.Proofs.Verify
import Verif.Spec.Slots
import Verif.Spec.Xor

/-! `aes_*_s_shares` on the spans of one repetition is the function of one party, for every party. -/

namespace Banquet.Loops

open Spec

variable {T N S : Nat}

theorem require_false (e : Err) : require e false = .error e := rfl

theorem upd_self {α : Type} (f : Nat → Nat → List α) (e p : Nat) : upd f e p (f e p) = f := by
  funext e' p'
  unfold upd
  split
  · next h => rw [h.1, h.2]
  · rfl

/-- Writing a part of a slot. -/
theorem part_write {f : Nat → Nat → Bytes} {e p : Nat} {z : Byte} (he : e < T) (hp : p < N) (hl : (f e p).length = S) (j : Nat) (v : Bytes) (hj : j + v.length ≤ S) :
    put (of T N S z f) ((e * N + p) * S + j) v = of T N S z (upd f e p ((f e p).take j ++ v ++ (f e p).drop (j + v.length))) := by
  have hs := slot_le (k := S) he hp
  have hsl := of_slice (z := z) he hp hl
  have hd := of_length (T := T) (N := N) (k := S) (z := z) f
  rw [← of_write he hp (by simp only [List.length_append, List.length_take, List.length_drop, hl]; omega)]
  unfold RepContainer.write put
  rw [offset_of]
  dsimp only
  congr 1
  generalize (of T N S z f).data = d at *
  generalize (e * N + p) * S = o at *
  rw [← hsl]
  have hlen : (List.take j (List.take S (List.drop o d)) ++ v ++ List.drop (j + v.length) (List.take S (List.drop o d))).length = S := by
    simp only [List.length_append, List.length_take, List.length_drop]
    omega
  rw [hlen]
  apply List.ext_getElem?
  intro i
  simp only [List.append_assoc, List.getElem?_append, List.length_take, List.length_drop, List.getElem?_take, List.getElem?_drop]
  have e1 : min (o + j) d.length = o + j := by omega
  have e2 : min o d.length = o := by omega
  have e3 : min j (min S (d.length - o)) = j := by omega
  have e4 : min S (d.length - o) = S := by omega
  rw [e1, e2, e3, e4]
  split_ifs <;> first | rfl | (exfalso; omega) | (congr 1; omega)

theorem slot_part {f : Nat → Nat → Bytes} {e p : Nat} {z : Byte} (he : e < T) (hp : p < N) (hl : (f e p).length = S) (j : Nat) (hj : j + 16 ≤ S) :
    loadBlk (of T N S z f).data ((e * N + p) * S + j) = loadBlk (f e p) j := by
  unfold loadBlk
  apply Vector.ext
  intro i hi
  simp only [Vector.getElem_ofFn]
  rw [List.getD_eq_getElem?_getD, List.getD_eq_getElem?_getD, Nat.add_assoc, of_data he hp (by omega) hl]

theorem store16_of {f : Nat → Nat → Bytes} {e p : Nat} {z : Byte} (he : e < T) (hp : p < N) (hl : (f e p).length = S) {j : Nat} (hj : j + 16 ≤ S) (m : Blk) :
    store16 (of T N S z f) e p j m = .ok (of T N S z (upd f e p ((f e p).take j ++ m.toList ++ (f e p).drop (j + 16)))) := by
  have hs := slot_le (k := S) he hp
  have h16 : m.toList.length = 16 := by simp
  have hw := part_write (z := z) he hp hl j m.toList (by omega)
  rw [h16] at hw
  unfold store16
  rw [of_objectSize, offset_of, of_length, decide_eq_true (show j < S by omega), require_true, ok_bind, decide_eq_true (by omega), require_true, ok_bind, hw]

theorem load16_of {f : Nat → Nat → Bytes} {e p : Nat} {z : Byte} (he : e < T) (hp : p < N) (hl : (f e p).length = S) {j : Nat} (hj : j + 16 ≤ S) :
    load16 (of T N S z f) e p j = .ok (loadBlk (f e p) j) := by
  have hs := slot_le (k := S) he hp
  unfold load16
  rw [of_objectSize, offset_of, of_length, decide_eq_true (show j < S by omega), require_true, ok_bind, decide_eq_true (by omega), require_true, ok_bind, slot_part he hp hl _ hj]

/-! ## The recorded values of one party -/

/-- The state of the code when the function of one party has recorded `st`. -/
def spans (T N S : Nat) (f : Nat → Nat → Bytes) (e p : Nat) (st : Bytes) (err : Err) : Spans := ⟨st.length, of T N S 0 (upd f e p (st ++ (f e p).drop st.length)), err⟩

/-- `y` does to the buffers what `x` does to the list of recorded values, and appends `k` values. -/
def Sim (T N S : Nat) (f : Nat → Nat → Bytes) (e p : Nat) {α : Type} (k : Nat) (x : AesM Bytes α) (y : AesM Spans α) : Prop :=
  ∀ st err, st.length + k ≤ S → ∃ a r, r.length = k ∧ x st = (some a, st ++ r) ∧ y (spans T N S f e p st err) = (some a, spans T N S f e p (st ++ r) err)

theorem aesBind {σ α β : Type} (x : AesM σ α) (f : α → AesM σ β) (s s' : σ) (a : α) (h : x s = (some a, s')) : (x >>= f) s = f a s' := by
  change AesM.bind x f s = _
  unfold AesM.bind
  rw [h]

variable {f : Nat → Nat → Bytes} {e p : Nat}

theorem Sim.pure {α : Type} (a : α) : Sim T N S f e p 0 (Pure.pure a) (Pure.pure a) := fun st err _ => ⟨a, [], rfl, by rw [List.append_nil]; rfl, by rw [List.append_nil]; rfl⟩

theorem Sim.bind {α β : Type} {k l : Nat} {x : AesM Bytes α} {y : AesM Spans α} {g : α → AesM Bytes β} {h : α → AesM Spans β} (hx : Sim T N S f e p k x y) (hg : ∀ a, Sim T N S f e p l (g a) (h a)) :
    Sim T N S f e p (k + l) (x >>= g) (y >>= h) := by
  intro st err hl
  obtain ⟨a, r, hr, h1, h2⟩ := hx st err (by omega)
  obtain ⟨b, r', hr', h3, h4⟩ := hg a (st ++ r) err (by rw [List.length_append]; omega)
  refine ⟨b, r ++ r', by rw [List.length_append]; omega, ?_, ?_⟩
  · rw [aesBind _ _ _ _ _ h1, h3, List.append_assoc]
  · rw [aesBind _ _ _ _ _ h2, h4, List.append_assoc]

theorem Sim.foldlM {α β : Type} {k : Nat} (l : List β) {x : α → β → AesM Bytes α} {y : α → β → AesM Spans α} (h : ∀ a b, Sim T N S f e p k (x a b) (y a b)) (a : α) :
    Sim T N S f e p (k * l.length) (l.foldlM x a) (l.foldlM y a) := by
  induction l generalizing a with
  | nil => exact Sim.pure a
  | cons b l ih =>
    rw [List.foldlM_cons, List.foldlM_cons, List.length_cons, Nat.mul_add, Nat.mul_one, Nat.add_comm]
    exact (h a b).bind fun a' => ih a'

theorem Sim.cast {α : Type} {k l : Nat} {x : AesM Bytes α} {y : AesM Spans α} (h : Sim T N S f e p k x y) (hk : k = l) : Sim T N S f e p l x y := hk ▸ h

section
variable (he : e < T) (hp : p < N) (hl : (f e p).length = S) (W : Nat → Nat → Bytes) (hW : (W e p).length = S)
include he hp hl hW

/-- One byte of the key schedule. -/
theorem exchange_ok (b : Byte) (st : Bytes) (err : Err) (h : st.length < S) :
    exchange (of T N S 0 W) e p b (spans T N S f e p st err) = (some ((W e p).getD st.length 0), spans T N S f e p (st ++ [b]) err) := by
  unfold exchange Spans.step spans
  dsimp only
  have hu : (upd f e p (st ++ (f e p).drop st.length) e p).length = S := by
    rw [upd_same, List.length_append, List.length_drop, hl]
    omega
  rw [spanWr_of he hp h hu, ok_bind, spanRd_of he hp h hW, ok_bind]
  dsimp only
  rw [upd_upd, upd_same, List.length_append, List.length_singleton]
  have : (st ++ (f e p).drop st.length).set st.length b = st ++ [b] ++ (f e p).drop (st.length + 1) := by
    rw [List.set_append_right _ _ (le_refl _), Nat.sub_self, List.drop_eq_getElem_cons (by omega), List.set_cons_zero, List.append_assoc]
    rfl
  rw [this]

theorem exchange4_ok (affine rcon b0 b1 b2 b3 : Byte) : Sim T N S f e p 4 (exchangeWord (W e p) affine rcon [b0, b1, b2, b3]) (exchange4 (of T N S 0 W) e p affine rcon b0 b1 b2 b3) := by
  intro st err h
  refine ⟨_, [b0, b1, b2, b3], rfl, rfl, ?_⟩
  unfold exchange4
  rw [aesBind _ _ _ _ _ (exchange_ok he hp hl W hW b0 st err (by omega)),
    aesBind _ _ _ _ _ (exchange_ok he hp hl W hW b1 _ err (by simp; omega)),
    aesBind _ _ _ _ _ (exchange_ok he hp hl W hW b2 _ err (by simp; omega)),
    aesBind _ _ _ _ _ (exchange_ok he hp hl W hW b3 _ err (by simp; omega))]
  change (some _, _) = (some _, _)
  refine congrArg₂ Prod.mk (congrArg some ?_) ?_
  · apply Vector.ext
    intro i hi
    rcases i with _ | _ | _ | _ | i
    · simp
    · simp
    · simp
    · simp
    · omega
  · rw [List.append_assoc, List.append_assoc, List.append_assoc]
    rfl

theorem kgen_sim (m : Blk) (rcon : Byte) : Sim T N S f e p 4 (kgenShare (p == 0) (W e p) m rcon) (kgenSpan (of T N S 0 W) e p m rcon) :=
  ((exchange4_ok he hp hl W hW _ _ _ _ _ _).bind fun _ => Sim.pure _).cast rfl

theorem kgen192_sim (m : Blk) (rcon : Byte) : Sim T N S f e p 4 (kgenShare192 (p == 0) (W e p) m rcon) (kgenSpan192 (of T N S 0 W) e p m rcon) :=
  ((exchange4_ok he hp hl W hW _ _ _ _ _ _).bind fun _ => Sim.pure _).cast rfl

theorem kgen256b_sim (m : Blk) : Sim T N S f e p 4 (kgenShare256b (p == 0) (W e p) m) (kgenSpan256b (of T N S 0 W) e p m) :=
  ((exchange4_ok he hp hl W hW _ _ _ _ _ _).bind fun _ => Sim.pure _).cast rfl

theorem sched128_sim (key : Blk) : Sim T N S f e p 40 (keySched128 (kgenShare (p == 0) (W e p)) key) (keySched128 (kgenSpan (of T N S 0 W) e p) key) := by
  unfold keySched128
  exact ((Sim.foldlM (k := 4) rcons128 (fun a b => ((kgen_sim he hp hl W hW _ _).bind fun _ => Sim.pure _).cast rfl) _).bind fun _ => Sim.pure _).cast rfl

theorem sched192_sim (t1 t3 : Blk) : Sim T N S f e p 32 (keySched192 (kgenShare192 (p == 0) (W e p)) t1 t3) (keySched192 (kgenSpan192 (of T N S 0 W) e p) t1 t3) := by
  unfold keySched192
  have h := kgen192_sim he hp hl W hW
  exact ((h _ _).bind fun _ => (h _ _).bind fun _ => (h _ _).bind fun _ => (h _ _).bind fun _ => (h _ _).bind fun _ => (h _ _).bind fun _ => (h _ _).bind fun _ => (h _ _).bind fun _ => Sim.pure _).cast rfl

theorem sched256_sim (t1 t3 : Blk) :
    Sim T N S f e p 52 (keySched256 (kgenShare (p == 0) (W e p)) (kgenShare256b (p == 0) (W e p)) t1 t3) (keySched256 (kgenSpan (of T N S 0 W) e p) (kgenSpan256b (of T N S 0 W) e p) t1 t3) := by
  unfold keySched256
  refine ((Sim.foldlM (k := 8) rcons256 (fun a b => ?_) _).bind fun _ => (kgen_sim he hp hl W hW _ _).bind fun _ => Sim.pure _).cast rfl
  exact ((kgen_sim he hp hl W hW _ _).bind fun _ => (kgen256b_sim he hp hl W hW _).bind fun _ => Sim.pure _).cast rfl

/-- One round. -/
theorem sub_sim (m : Blk) : Sim T N S f e p 16 (subShare (p == 0) (W e p) m) (subSpan (of T N S 0 W) e p m) := by
  intro st err h
  have hu : (upd f e p (st ++ (f e p).drop st.length) e p).length = S := by
    rw [upd_same, List.length_append, List.length_drop, hl]
    omega
  have h16 : m.rowOrder.toList.length = 16 := by simp
  refine ⟨_, m.rowOrder.toList, h16, rfl, ?_⟩
  unfold subSpan Spans.step spans
  dsimp only
  rw [store16_of he hp hu h, ok_bind, load16_of he hp hW h, ok_bind]
  dsimp only
  rw [upd_upd, upd_same, List.length_append, h16]
  have : (st ++ (f e p).drop st.length).take st.length ++ m.rowOrder.toList ++ (st ++ (f e p).drop st.length).drop (st.length + 16) = st ++ m.rowOrder.toList ++ (f e p).drop (st.length + 16) := by
    rw [List.take_left' rfl, List.drop_append, List.drop_eq_nil_of_le (by omega), List.nil_append, List.drop_drop]
    congr 2
    omega
  rw [this]

theorem rounds_sim (ks : List Blk) (m : Blk) (n : Nat) (hn : ks.length = n + 2) : Sim T N S f e p (16 * n + 16) (rounds (subShare (p == 0) (W e p)) Blk.imc3 ks m) (rounds (subSpan (of T N S 0 W) e p) Blk.imc3 ks m) := by
  unfold rounds
  refine ((Sim.foldlM (k := 16) _ (fun a b => ((sub_sim he hp hl W hW _).bind fun _ => Sim.pure _).cast rfl) _).bind fun _ => (sub_sim he hp hl W hW _).bind fun _ => Sim.pure _).cast ?_
  rw [List.length_dropLast, List.length_drop, hn]
  omega

end

/-! ## One party -/

/-- The key schedule of one party, and its costs. -/
def keyM (keySize : Nat) (first : Bool) (key t : Bytes) : AesM Bytes (List Blk) :=
  if keySize = 16 then keySched128 (kgenShare first t) (loadBlk key 0)
  else if keySize = 24 then keySched192 (kgenShare192 first t) (loadBlk key 0) (loadBlk key 16)
  else keySched256 (kgenShare first t) (kgenShare256b first t) (loadBlk key 0) (loadBlk key 16)

def keyCost (keySize : Nat) : Nat := if keySize = 16 then 40 else if keySize = 24 then 32 else 52

def mids (keySize : Nat) : Nat := if keySize = 16 then 9 else if keySize = 24 then 11 else 13

def blocks (keySize : Nat) : Nat := if keySize = 16 then 1 else 2

theorem keyM_run (keySize : Nat) (first : Bool) (key t : Bytes) : ∃ ks a, keyM keySize first key t [] = (some ks, a) ∧ ks.length = mids keySize + 2 ∧ a.length = keyCost keySize := by
  unfold keyM mids keyCost
  split
  · obtain ⟨a, _, _, d, _, h, _, _, hd, _, hv⟩ := keySched128_lin (kgenShare_lin (rfl : t.length = t.length) first) (loadBlk key 0) (loadBlk key 0) [] [] rfl
    exact ⟨a, d, h, hv.1, hd⟩
  split
  · obtain ⟨a, _, _, d, _, h, _, _, hd, _, hv⟩ := keySched192_lin (kgenShare192_lin (rfl : t.length = t.length) first) (loadBlk key 0) (loadBlk key 0) (loadBlk key 16) (loadBlk key 16) [] [] rfl
    exact ⟨a, d, h, hv.1, hd⟩
  · obtain ⟨a, _, _, d, _, h, _, _, hd, _, hv⟩ :=
      keySched256_lin (kgenShare_lin (rfl : t.length = t.length) first) (kgenShare256b_lin (rfl : t.length = t.length) first) (loadBlk key 0) (loadBlk key 0) (loadBlk key 16) (loadBlk key 16) [] [] rfl
    exact ⟨a, d, h, hv.1, hd⟩

theorem rounds_run (first : Bool) (t : Bytes) {ks : List Blk} {n : Nat} (h : ks.length = n + 2) (m : Blk) (st : Bytes) :
    ∃ a r, rounds (subShare first t) Blk.imc3 ks m st = (some a, st ++ r) ∧ r.length = 16 * n + 16 := by
  obtain ⟨a, _, _, d, _, h, _, _, hd, _⟩ := rounds_lin (subShare_lin (rfl : t.length = t.length) first) n (⟨h, h, rfl⟩ : VL (n + 2) ks ks _) m m st st rfl
  exact ⟨a, d, h, by omega⟩

/-- Recorded values and ciphertext after `b` blocks. -/
def seqB (first : Bool) (t : Bytes) (ks : List Blk) (pt a : Bytes) : Nat → Bytes × Bytes
  | 0 => (a, [])
  | b + 1 =>
    let r := rounds (subShare first t) Blk.imc3 ks (partyPt first pt (16 * b)) (seqB first t ks pt a b).1
    (r.2, (seqB first t ks pt a b).2 ++ (r.1.map Vector.toList).getD [])

theorem seqB_length (first : Bool) (t : Bytes) {ks : List Blk} {n : Nat} (h : ks.length = n + 2) (pt a : Bytes) (b : Nat) :
    (seqB first t ks pt a b).1.length = a.length + b * (16 * n + 16) ∧ (seqB first t ks pt a b).2.length = 16 * b := by
  induction b with
  | zero => simp [seqB]
  | succ b ih =>
    obtain ⟨m, r, hr, hl⟩ := rounds_run first t h (partyPt first pt (16 * b)) (seqB first t ks pt a b).1
    unfold seqB
    rw [hr]
    refine ⟨?_, ?_⟩
    · change (_ ++ r).length = _
      rw [List.length_append, ih.1, hl]
      ring
    · change (_ ++ m.toList).length = _
      rw [List.length_append, ih.2, Vector.length_toList]
      omega

theorem aesParty_seq (keySize : Nat) (first : Bool) (key t pt : Bytes) {ks : List Blk} {a : Bytes} (h : keyM keySize first key t [] = (some ks, a)) (hk : ks.length = mids keySize + 2) :
    aesParty keySize first key t pt = seqB first t ks pt a (blocks keySize) := by
  unfold keyM at h
  unfold aesParty blocks
  obtain ⟨m, r, hm, _⟩ := rounds_run first t hk (partyPt first pt 0) a
  obtain ⟨m', r', hm', _⟩ := rounds_run first t hk (partyPt first pt 16) (a ++ r)
  split
  · next h16 =>
    rw [if_pos h16] at h
    unfold aes128Party seqB seqB
    rw [aesBind _ _ _ _ _ h, aesBind _ _ _ _ _ hm]
    dsimp only
    rw [Nat.mul_zero, hm]
    rfl
  · next h16 =>
    rw [if_neg h16] at h
    split
    · next h24 =>
      rw [if_pos h24] at h
      unfold aes192Party seqB seqB seqB
      rw [aesBind _ _ _ _ _ h, aesBind _ _ _ _ _ hm, aesBind _ _ _ _ _ hm']
      dsimp only
      rw [Nat.mul_zero, hm, hm']
      rfl
    · next h24 =>
      rw [if_neg h24] at h
      unfold aes256Party seqB seqB seqB
      rw [aesBind _ _ _ _ _ h, aesBind _ _ _ _ _ hm, aesBind _ _ _ _ _ hm']
      dsimp only
      rw [Nat.mul_zero, hm, hm']
      rfl

/-! ## The loops over the parties -/

/-- Running from the state in which the slot of the party begins with `st`. -/
theorem run_sim {α : Type} {f : Nat → Nat → Bytes} {e p k : Nat} {x : AesM Bytes α} {y : AesM Spans α} (h : Sim T N S f e p k x y) {st : Bytes} (hst : st.length + k ≤ S) (hf : f e p = st ++ (f e p).drop st.length)
    {a : α} {st' : Bytes} (hx : x st = (some a, st')) : Spans.run y st.length (of T N S 0 f) = .ok (a, of T N S 0 (upd f e p (st' ++ (f e p).drop st'.length))) := by
  obtain ⟨a', r, _, h1, h2⟩ := h st .ub hst
  rw [hx] at h1
  obtain ⟨h3, h4⟩ := Prod.mk.inj h1
  cases h3
  unfold Spans.run
  have : (⟨st.length, of T N S 0 f, .ub⟩ : Spans) = spans T N S f e p st .ub := by
    unfold spans
    rw [← hf, upd_self]
  rw [this, h2, ← h4]
  rfl

theorem keySpans_of (keySize : Nat) {g K W : Nat → Nat → Bytes} {e p : Nat} (he : e < T) (hp : p < N) (hg : (g e p).length = S) (hK : (K e p).length = keySize) (hW : (W e p).length = S) (hS : keyCost keySize ≤ S)
    {ks : List Blk} {a : Bytes} (h : keyM keySize (p == 0) (K e p) (W e p) [] = (some ks, a)) :
    keySpans keySize (of T N keySize 0 K) (of T N S 0 W) e p (of T N S 0 g) = .ok (ks, of T N S 0 (upd g e p (a ++ (g e p).drop a.length))) := by
  have hs := slot_le (k := keySize) he hp
  unfold keySpans loadSpan slice
  unfold keyM at h
  unfold keyCost at hS
  rw [offset_of, of_length, decide_eq_true hs, require_true, ok_bind, of_slice he hp hK, ok_bind]
  split_ifs at h hS ⊢
  · exact run_sim (sched128_sim he hp hg W hW _) (st := []) (by simpa using hS) rfl h
  · exact run_sim (sched192_sim he hp hg W hW _ _) (st := []) (by simpa using hS) rfl h
  · exact run_sim (sched256_sim he hp hg W hW _ _) (st := []) (by simpa using hS) rfl h

theorem blockSpans_of {C : Nat} (keySize : Nat) {c g W : Nat → Nat → Bytes} {e p b n : Nat} (he : e < T) (hp : p < N) (hc : (c e p).length = C) (hg : (g e p).length = S) (hW : (W e p).length = S)
    (pt : Bytes) (hpt : 16 * b + 16 ≤ pt.length) (hC : 16 * b + 16 ≤ C) {ks : List Blk} (hk : ks.length = n + 2) {A A' ct : Bytes} (hA : A.length = roundIndex keySize b) (hS : A.length + (16 * n + 16) ≤ S) {m : Blk}
    (hgA : g e p = A ++ (g e p).drop A.length) (hct : c e p = ct ++ (c e p).drop ct.length) (hcl : ct.length = 16 * b)
    (hr : rounds (subShare (p == 0) (W e p)) Blk.imc3 ks (partyPt (p == 0) pt (16 * b)) A = (some m, A')) :
    blockSpans keySize pt (of T N S 0 W) e b p ks (of T N C 0 c, of T N S 0 g) =
      .ok (of T N C 0 (upd c e p (ct ++ m.toList ++ (c e p).drop (ct ++ m.toList).length)), of T N S 0 (upd g e p (A' ++ (g e p).drop A'.length))) := by
  have hs := slot_le (k := C) he hp
  have hst : startBlk pt b p = .ok (partyPt (p == 0) pt (16 * b)) := by
    unfold startBlk partyPt
    split
    · rw [decide_eq_true hpt, require_true, ok_bind]
    · rfl
  have hm : m.toList.length = 16 := by simp
  unfold blockSpans
  rw [hst, ok_bind, ← hA, run_sim (rounds_sim he hp hg W hW ks _ n hk) hS hgA hr, ok_bind]
  dsimp only
  rw [offset_of, of_length, decide_eq_true (by omega), require_true, ok_bind, part_write he hp hc _ _ (by omega), List.length_append, hm]
  have : (c e p).take (16 * b) = ct := by rw [hct, ← hcl, List.take_left' rfl]
  rw [this, hcl]

/-- A container with the same bytes whose slots are full. -/
theorem of_full {α : Type} {C : Nat} {z : α} (f : Nat → Nat → List α) : of T N C z f = of T N C z fun e p => (List.range C).map fun j => (f e p).getD j z := by
  unfold of
  congr 1
  apply List.map_congr_left
  intro i hi
  have hC : 0 < C := by
    rcases Nat.eq_zero_or_pos C with h | h
    · subst h
      simp at hi
    · exact h
  simp [Nat.mod_lt i hC]

theorem of_rowFull {α : Type} {C : Nat} {z : α} (f : Nat → Nat → List α) (e n : Nat) (G : Nat → List α) :
    of T N C z (rowUpd (fun e p => (List.range C).map fun j => (f e p).getD j z) e n G) = of T N C z (rowUpd f e n G) := by
  unfold of
  congr 1
  apply List.map_congr_left
  intro i hi
  have hC : 0 < C := by
    rcases Nat.eq_zero_or_pos C with h | h
    · subst h
      simp at hi
    · exact h
  unfold rowUpd
  split
  · rfl
  · simp [Nat.mod_lt i hC]

theorem rowUpd_row {α : Type} (f : Nat → Nat → List α) (e n : Nat) : rowUpd f e n (f e) = f := by
  funext e' p'
  unfold rowUpd
  split
  · next h => rw [h.1]
  · rfl

theorem rowUpd_rowUpd {α : Type} (f : Nat → Nat → List α) (e n : Nat) (G H : Nat → List α) : rowUpd (rowUpd f e n G) e n H = rowUpd f e n H := by
  funext e' p'
  unfold rowUpd
  split <;> rfl

/-- The key schedules of one repetition, and the states before and after each block. -/
theorem aesRep_states {I : Instance} (hI : Spec.Consistent I) (pt : Bytes) {e : Nat} (he : e < T) (K W f g : Nat → Nat → Bytes) (hK : ∀ p < I.numParties, (K e p).length = I.aes.keySize)
    (hW : ∀ p < I.numParties, (W e p).length = I.aes.numSboxes) (hf : ∀ p < I.numParties, (f e p).length = I.ctSize) (hg : ∀ p < I.numParties, (g e p).length = I.aes.numSboxes) :
    ∃ (ks : List (List Blk)) (P : Nat → RepContainer Byte × RepContainer Byte), ks.length = I.numParties ∧
      forTo I.numParties (fun p (st : List (List Blk) × RepContainer Byte) => do
        let (k, s) ← keySpans I.aes.keySize (of T I.numParties I.aes.keySize 0 K) (of T I.numParties I.aes.numSboxes 0 W) e p st.2
        .ok (st.1 ++ [k], s)) ([], of T I.numParties I.aes.numSboxes 0 g) = .ok (ks, (P 0).2) ∧
      (P 0).1 = of T I.numParties I.ctSize 0 f ∧
      (∀ b < blocks I.aes.keySize, 16 * b + 16 ≤ pt.length → forTo I.numParties (fun p st => do
        let k ← rd ks p
        blockSpans I.aes.keySize pt (of T I.numParties I.aes.numSboxes 0 W) e b p k st) (P b) = .ok (P (b + 1))) ∧
      P (blocks I.aes.keySize) = (of T I.numParties I.ctSize 0 (rowUpd f e I.numParties fun p => (aesParty I.aes.keySize (p == 0) (K e p) (W e p) pt).2),
        of T I.numParties I.aes.numSboxes 0 (rowUpd g e I.numParties fun p => (aesParty I.aes.keySize (p == 0) (K e p) (W e p) pt).1)) := by
  have hS : I.aes.numSboxes = keyCost I.aes.keySize + blocks I.aes.keySize * (16 * mids I.aes.keySize + 16) := by
    rw [sboxCount_eq hI]
    unfold sboxCount keyCost blocks mids
    split_ifs <;> rfl
  have hC : I.ctSize = 16 * blocks I.aes.keySize := by
    rw [ctSize_eq hI]
    unfold ctLength blocks
    split_ifs <;> rfl
  have hR : ∀ b < blocks I.aes.keySize, roundIndex I.aes.keySize b = keyCost I.aes.keySize + b * (16 * mids I.aes.keySize + 16) := by
    intro b hb
    unfold blocks at hb
    unfold roundIndex keyCost mids
    split_ifs at hb ⊢ <;> omega
  have hall : ∀ p, ∃ x : List Blk × Bytes, keyM I.aes.keySize (p == 0) (K e p) (W e p) [] = (some x.1, x.2) ∧ x.1.length = mids I.aes.keySize + 2 ∧ x.2.length = keyCost I.aes.keySize := by
    intro p
    obtain ⟨ks, a, h⟩ := keyM_run I.aes.keySize (p == 0) (K e p) (W e p)
    exact ⟨(ks, a), h⟩
  choose x hx1 hx2 hx3 using hall
  generalize I.aes.keySize = kS at *
  generalize I.aes.numSboxes = S at *
  generalize I.ctSize = C at *
  generalize I.numParties = N at *
  generalize hA : (fun b p => (seqB (p == 0) (W e p) (x p).1 pt (x p).2 b).1 ++ (g e p).drop (seqB (p == 0) (W e p) (x p).1 pt (x p).2 b).1.length) = A
  generalize hc : (fun b p => (seqB (p == 0) (W e p) (x p).1 pt (x p).2 b).2 ++ (f e p).drop (seqB (p == 0) (W e p) (x p).1 pt (x p).2 b).2.length) = c
  have hA' : ∀ b p, A b p = (seqB (p == 0) (W e p) (x p).1 pt (x p).2 b).1 ++ (g e p).drop (seqB (p == 0) (W e p) (x p).1 pt (x p).2 b).1.length := fun b p => by rw [← hA]
  have hc' : ∀ b p, c b p = (seqB (p == 0) (W e p) (x p).1 pt (x p).2 b).2 ++ (f e p).drop (seqB (p == 0) (W e p) (x p).1 pt (x p).2 b).2.length := fun b p => by rw [← hc]
  have hsl : ∀ b p, _ := fun b p => seqB_length (p == 0) (W e p) (hx2 p) pt (x p).2 b
  have hkey : forTo N (fun p (st : List (List Blk) × RepContainer Byte) => do
      let (k, s) ← keySpans kS (of T N kS 0 K) (of T N S 0 W) e p st.2
      .ok (st.1 ++ [k], s)) ([], of T N S 0 g) = .ok ((List.range N).map fun p => (x p).1, of T N S 0 (rowUpd g e N (A 0))) := by
    refine forTo_state _ _ _ (fun n => ((List.range n).map fun p => (x p).1, of T N S 0 (rowUpd g e n (A 0)))) (by rw [rowUpd_zero]; rfl) fun p hp => ?_
    have hgp : rowUpd g e p (A 0) e p = g e p := by simp [rowUpd]
    dsimp only
    rw [keySpans_of kS (g := rowUpd g e p (A 0)) he hp (by rw [hgp]; exact hg p hp) (hK p hp) (hW p hp) (by omega) (hx1 p), ok_bind, hgp]
    dsimp only
    rw [range_map_succ, ← rowUpd_succ, hA']
    rfl
  refine ⟨_, fun b => (of T N C 0 (rowUpd f e N (c b)), of T N S 0 (rowUpd g e N (A b))), by simp, hkey, ?_, ?_, ?_⟩
  rotate_left 2
  · have hfin : ∀ p < N, A (blocks kS) p = (aesParty kS (p == 0) (K e p) (W e p) pt).1 ∧ c (blocks kS) p = (aesParty kS (p == 0) (K e p) (W e p) pt).2 := by
      intro p hp
      have h1 := hsl (blocks kS) p
      rw [aesParty_seq kS (p == 0) (K e p) (W e p) pt (hx1 p) (hx2 p), hA', hc', List.drop_eq_nil_of_le (by rw [h1.1, hx3, hg p hp, hS]), List.drop_eq_nil_of_le (by rw [h1.2, hf p hp, hC]),
        List.append_nil, List.append_nil]
      exact ⟨rfl, rfl⟩
    refine congrArg₂ Prod.mk (of_congr fun e' _ p hp => ?_) (of_congr fun e' _ p hp => ?_)
    · unfold rowUpd
      exact if_congr Iff.rfl (hfin p hp).2 rfl
    · unfold rowUpd
      exact if_congr Iff.rfl (hfin p hp).1 rfl
  · dsimp only
    rw [show c 0 = f e from by funext p; rw [hc']; rfl, rowUpd_row]
  · intro b hb hpt
    refine (forTo_state _ _ _ (fun n => (of T N C 0 (rowUpd (rowUpd f e N (c b)) e n (c (b + 1))), of T N S 0 (rowUpd (rowUpd g e N (A b)) e n (A (b + 1))))) (by rw [rowUpd_zero, rowUpd_zero]) fun p hp => ?_).trans
      (by rw [rowUpd_rowUpd, rowUpd_rowUpd])
    have h1 := hsl b p
    have hb1 : b * (16 * mids kS + 16) + (16 * mids kS + 16) ≤ blocks kS * (16 * mids kS + 16) := by
      rw [← Nat.succ_mul]
      exact Nat.mul_le_mul_right _ hb
    have hgp : rowUpd (rowUpd g e N (A b)) e p (A (b + 1)) e p = A b p := by simp [rowUpd, hp]
    have hcp : rowUpd (rowUpd f e N (c b)) e p (c (b + 1)) e p = c b p := by simp [rowUpd, hp]
    obtain ⟨m, r, hr, hrl⟩ := rounds_run (p == 0) (W e p) (hx2 p) (partyPt (p == 0) pt (16 * b)) (seqB (p == 0) (W e p) (x p).1 pt (x p).2 b).1
    have hn1 : (seqB (p == 0) (W e p) (x p).1 pt (x p).2 (b + 1)).1 = (seqB (p == 0) (W e p) (x p).1 pt (x p).2 b).1 ++ r := by
      rw [seqB, hr]
    have hn2 : (seqB (p == 0) (W e p) (x p).1 pt (x p).2 (b + 1)).2 = (seqB (p == 0) (W e p) (x p).1 pt (x p).2 b).2 ++ m.toList := by
      rw [seqB, hr]
      rfl
    have hx3p := hx3 p
    have hgl := hg p hp
    have hfl := hf p hp
    have hAl : (A b p).length = S := by
      rw [hA', List.length_append, List.length_drop, h1.1]
      omega
    have hcl : (c b p).length = C := by
      rw [hc', List.length_append, List.length_drop, h1.2]
      omega
    have hA1 : A b p = (seqB (p == 0) (W e p) (x p).1 pt (x p).2 b).1 ++ (A b p).drop (seqB (p == 0) (W e p) (x p).1 pt (x p).2 b).1.length := by
      rw [hA', List.drop_left' rfl]
    have hc1 : c b p = (seqB (p == 0) (W e p) (x p).1 pt (x p).2 b).2 ++ (c b p).drop (seqB (p == 0) (W e p) (x p).1 pt (x p).2 b).2.length := by
      rw [hc', List.drop_left' rfl]
    rw [rd_map _ _ hp, ok_bind, blockSpans_of kS (c := rowUpd (rowUpd f e N (c b)) e p (c (b + 1))) (g := rowUpd (rowUpd g e N (A b)) e p (A (b + 1))) he hp (by rw [hcp, hcl]) (by rw [hgp, hAl]) (hW p hp) pt (by omega) (by omega)
      (hx2 p) (by rw [hR b hb, h1.1, hx3p]) (by rw [h1.1]; omega) (by rw [hgp]; exact hA1) (by rw [hcp]; exact hc1) h1.2 hr, hgp, hcp]
    refine congrArg Except.ok (congrArg₂ Prod.mk (congrArg _ ?_) (congrArg _ ?_))
    · rw [← rowUpd_succ, ← hn2, hc' (b + 1) p]
      congr 2
      rw [hc' b p, hn2, List.length_append, List.drop_append, List.drop_eq_nil_of_le (by omega), List.nil_append, List.drop_drop]
      congr 1
      omega
    · rw [← rowUpd_succ, ← hn1, hA' (b + 1) p]
      congr 2
      rw [hA' b p, hn1, List.length_append, List.drop_append, List.drop_eq_nil_of_le (by omega), List.nil_append, List.drop_drop]
      congr 1
      omega

/-- One repetition of the shared AES evaluation. -/
theorem aesRep_full {I : Instance} (hI : Spec.Consistent I) (pt : Bytes) (hpt : I.ctSize ≤ pt.length) {e : Nat} (he : e < T) (K W f g : Nat → Nat → Bytes) (hK : ∀ p < I.numParties, (K e p).length = I.aes.keySize)
    (hW : ∀ p < I.numParties, (W e p).length = I.aes.numSboxes) (hf : ∀ p < I.numParties, (f e p).length = I.ctSize) (hg : ∀ p < I.numParties, (g e p).length = I.aes.numSboxes) :
    aesRep I pt e (of T I.numParties I.aes.keySize 0 K) (of T I.numParties I.aes.numSboxes 0 W) (of T I.numParties I.ctSize 0 f, of T I.numParties I.aes.numSboxes 0 g) =
      .ok (of T I.numParties I.ctSize 0 (rowUpd f e I.numParties fun p => (aesParty I.aes.keySize (p == 0) (K e p) (W e p) pt).2),
        of T I.numParties I.aes.numSboxes 0 (rowUpd g e I.numParties fun p => (aesParty I.aes.keySize (p == 0) (K e p) (W e p) pt).1)) := by
  obtain ⟨ks, P, _, h1, h2, h3, h4⟩ := aesRep_states hI pt he K W f g hK hW hf hg
  have hC : I.ctSize = 16 * blocks I.aes.keySize := by
    rw [ctSize_eq hI]
    unfold ctLength blocks
    split_ifs <;> rfl
  unfold aesRep
  rw [checkAes_ok hI, ok_bind, h1, ok_bind, ← h2, ← h4]
  exact forTo_state _ _ _ P rfl fun b hb => h3 b hb (by change b < blocks I.aes.keySize at hb; omega)

/-- The plaintext is too short. -/
theorem aesRep_short {I : Instance} (hI : Spec.Consistent I) (pt : Bytes) (hpt : pt.length < I.ctSize) {e : Nat} (he : e < T) (K W f g : Nat → Nat → Bytes) (hK : ∀ p < I.numParties, (K e p).length = I.aes.keySize)
    (hW : ∀ p < I.numParties, (W e p).length = I.aes.numSboxes) (hf : ∀ p < I.numParties, (f e p).length = I.ctSize) (hg : ∀ p < I.numParties, (g e p).length = I.aes.numSboxes) :
    aesRep I pt e (of T I.numParties I.aes.keySize 0 K) (of T I.numParties I.aes.numSboxes 0 W) (of T I.numParties I.ctSize 0 f, of T I.numParties I.aes.numSboxes 0 g) = .error .ub := by
  obtain ⟨ks, P, hks, h1, h2, h3, _⟩ := aesRep_states hI pt he K W f g hK hW hf hg
  have hC : I.ctSize = 16 * blocks I.aes.keySize := by
    rw [ctSize_eq hI]
    unfold ctLength blocks
    split_ifs <;> rfl
  have hN : 0 < I.numParties := by have := (parties_bounds hI).1; omega
  unfold aesRep
  rw [checkAes_ok hI, ok_bind, h1, ok_bind, ← h2]
  have hlt : pt.length / 16 < blocks I.aes.keySize := by omega
  refine forTo_stop _ _ _ P (pt.length / 16) hlt .ub rfl (fun b hb => h3 b (by omega) (by omega)) (forTo_stop _ _ _ (fun _ => P (pt.length / 16)) 0 hN .ub rfl (fun i hi => absurd hi (Nat.not_lt_zero i)) ?_)
  rw [rd_getD [] (by omega), ok_bind]
  unfold blockSpans startBlk
  rw [if_pos (show ((0 : Nat) == 0) = true from rfl), decide_eq_false (by omega), require_false]
  rfl

theorem aesRep_ok {I : Instance} (hI : Spec.Consistent I) (pt : Bytes) (hpt : I.ctSize ≤ pt.length) {e : Nat} (he : e < T) (K W f g : Nat → Nat → Bytes) (hK : ∀ p < I.numParties, (K e p).length = I.aes.keySize)
    (hW : ∀ p < I.numParties, (W e p).length = I.aes.numSboxes) :
    aesRep I pt e (of T I.numParties I.aes.keySize 0 K) (of T I.numParties I.aes.numSboxes 0 W) (of T I.numParties I.ctSize 0 f, of T I.numParties I.aes.numSboxes 0 g) =
      .ok (of T I.numParties I.ctSize 0 (rowUpd f e I.numParties fun p => (aesParty I.aes.keySize (p == 0) (K e p) (W e p) pt).2),
        of T I.numParties I.aes.numSboxes 0 (rowUpd g e I.numParties fun p => (aesParty I.aes.keySize (p == 0) (K e p) (W e p) pt).1)) := by
  rw [of_full f, of_full g, aesRep_full hI pt hpt he K W _ _ hK hW (fun p _ => by simp) (fun p _ => by simp), of_rowFull, of_rowFull]

/-- Every container in closed form. -/
theorem of_slots {C : Nat} {z : Byte} {d : Bytes} (h : d.length = T * N * C) : (⟨d, T, N, C⟩ : RepContainer Byte) = of T N C z fun e p => slice d ((e * N + p) * C) C := by
  unfold of
  congr 1
  apply List.ext_getElem?
  intro i
  rw [List.getElem?_map]
  rcases Nat.lt_or_ge i (T * N * C) with hi | hi
  · have hC : 0 < C := by
      rcases Nat.eq_zero_or_pos C with h | h
      · subst h
        simp at hi
      · exact h
    have hN : 0 < N := by
      rcases Nat.eq_zero_or_pos N with h | h
      · subst h
        simp at hi
      · exact h
    have e1 : (i / C / N * N + i / C % N) * C + i % C = i := by
      rw [Nat.mul_comm (i / C / N), Nat.div_add_mod, Nat.mul_comm, Nat.div_add_mod]
    rw [List.getElem?_range hi, Option.map_some]
    unfold slice
    rw [List.getD_eq_getElem?_getD, List.getElem?_take, if_pos (Nat.mod_lt i hC), List.getElem?_drop, e1, List.getElem?_eq_getElem (by omega)]
    rfl
  · rw [List.getElem?_eq_none (by omega), List.getElem?_eq_none (by simp; omega)]
    rfl

theorem of_eta {α : Type} {C : Nat} {z : α} (f : Nat → Nat → List α) : of T N C z f = ⟨(of T N C z f).data, T, N, C⟩ := rfl

theorem slot_slice {α : Type} {v : List α} {o k : Nat} (h : o + k ≤ v.length) : ((List.range k).filterMap fun i => v[o + i]?) = (v.drop o).take k := by
  induction k with
  | zero => simp
  | succ k ih =>
    rw [List.range_succ, List.filterMap_append, ih (by omega), List.take_add_one, List.getElem?_drop, List.getElem?_eq_getElem (by omega)]
    simp [List.getElem?_eq_getElem (show o + k < v.length by omega)]

theorem two_slots {n : Nat} {t : Bytes} (ht : t.length = n) : xorOf n [slot (t ++ List.replicate n 0) 2 n 0 0, slot (t ++ List.replicate n 0) 2 n 0 1] = t := by
  have h0 : slot (t ++ List.replicate n 0) 2 n 0 0 = t := by
    refine (slot_slice (o := 0 * 2 * n + 0 * n) (by simp [ht])).trans ?_
    rw [show 0 * 2 * n + 0 * n = 0 by simp, List.drop_zero, List.take_left' ht]
  have h1 : slot (t ++ List.replicate n 0) 2 n 0 1 = List.replicate n 0 := by
    refine (slot_slice (o := 0 * 2 * n + 1 * n) (by simp [ht])).trans ?_
    rw [show 0 * 2 * n + 1 * n = n by simp, List.drop_left' ht, List.take_of_length_le (by simp)]
  rw [h0, h1]
  unfold xorOf
  apply List.ext_getElem (by simp [ht])
  intro i h1 h2
  simp only [List.length_map, List.length_range] at h1
  simp [List.getElem?_eq_getElem h2, List.getElem?_replicate, h1]

end Banquet.Loops
