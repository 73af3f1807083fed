import Verif.Proofs.AesLin
import Verif.Spec.Aes
import Verif.Proofs.AesByte

/-! The plain, the recording and the shared AES computations, related by the S-box inputs they meet. -/

namespace Banquet

instance {σ : Type} : LawfulMonad (AesM σ) := LawfulMonad.mk'
  (id_map := fun x => by
    funext st
    change AesM.bind x (fun a => AesM.pure a) st = x st
    unfold AesM.bind AesM.pure
    rcases x st with ⟨_ | a, s'⟩ <;> rfl)
  (pure_bind := fun a f => rfl)
  (bind_assoc := fun x f g => by
    funext st
    change AesM.bind (AesM.bind x f) g st = AesM.bind x (fun a => AesM.bind (f a) g) st
    unfold AesM.bind
    rcases x st with ⟨_ | a, s'⟩ <;> rfl)

/-- A computation of the shared variant that never stops and only appends `s` values. -/
def Mono {α : Type} (x : AesM Bytes α) : Prop := ∀ st, ∃ v d, x st = (some v, st ++ d)

theorem Mono.pure {α : Type} (a : α) : Mono (Pure.pure a : AesM Bytes α) := fun st => ⟨a, [], by rw [AesM.pure_run, List.append_nil]⟩

theorem Mono.bind {α β : Type} {x : AesM Bytes α} {f : α → AesM Bytes β} (hx : Mono x) (hf : ∀ a, Mono (f a)) : Mono (x >>= f) := by
  intro st
  obtain ⟨v, d, e⟩ := hx st
  obtain ⟨w, d', e'⟩ := hf v (st ++ d)
  exact ⟨w, d ++ d', by rw [AesM.bind_run e, e', List.append_assoc]⟩

theorem Mono.foldlM {α β : Type} (l : List β) {f : α → β → AesM Bytes α} (hf : ∀ a b, Mono (f a b)) (a : α) : Mono (l.foldlM f a) := by
  induction l generalizing a with
  | nil => exact Mono.pure a
  | cons b l ih => rw [List.foldlM_cons]; exact (hf a b).bind fun a' => ih a'

/-- The plain computation `p`, the recording computation `s` and the shared computation `y` (of party 0, depending on the given S-box outputs `T`) meet the S-box inputs `ins` in this order, and their
results satisfy `P`. -/
structure Tr {α : Type} (ins : Bytes) (P : α → Prop) (p : AesM Unit α) (s : AesM Saved α) (y : Bytes → AesM Bytes α) : Prop where
  plainZero : 0 ∈ ins → p () = (none, ())
  plain : 0 ∉ ins → ∃ v, P v ∧ p () = (some v, ())
  saveZero : 0 ∈ ins → ∀ st, (s st).1 = none ∧ ∃ d, d <+: ins ∧ d.length < ins.length ∧ (s st).2 = (st.1 ++ d, st.2 ++ d.map aesInv)
  save : 0 ∉ ins → ∀ st, ∃ v, P v ∧ s st = (some v, (st.1 ++ ins, st.2 ++ ins.map aesInv))
  share : ∀ T st rest, T.drop st.length = ins.map aesInv ++ rest → ∃ v, P v ∧ y T st = (some v, st ++ ins)
  conv : ∀ T st v d, y T st = (some v, st ++ d) → (∀ i (h : i < d.length), aesMul d[i] (T.getD (st.length + i) 0) = 1) → d = ins ∧ P v ∧ 0 ∉ ins

theorem Tr.pure {α : Type} {P : α → Prop} {a b c : α} (ha : P a) (hb : P b) (hc : P c) : Tr [] P (Pure.pure a) (Pure.pure b) (fun _ => Pure.pure c) where
  plainZero h := by simp at h
  plain _ := ⟨a, ha, rfl⟩
  saveZero h := by simp at h
  save _ st := ⟨b, hb, by rw [AesM.pure_run]; simp⟩
  share T st rest _ := ⟨c, hc, by rw [AesM.pure_run]; simp⟩
  conv T st v d h _ := by
    rw [AesM.pure_run, Prod.mk.injEq] at h
    obtain ⟨h1, h2⟩ := h
    have : d = [] := by simpa using h2
    exact ⟨this, (Option.some.inj h1) ▸ hc, by simp⟩

theorem Tr.bind {α β : Type} {P : α → Prop} {Q : β → Prop} {i1 i2 : Bytes} {p : AesM Unit α} {s : AesM Saved α} {y : Bytes → AesM Bytes α}
    {fp : α → AesM Unit β} {fs : α → AesM Saved β} {fy : Bytes → α → AesM Bytes β} (h : Tr i1 P p s y)
    (hf : ∀ a b c, P a → P b → P c → Tr i2 Q (fp a) (fs b) (fun T => fy T c)) (hm : ∀ T c, Mono (fy T c)) (hy : ∀ T, Mono (y T)) :
    Tr (i1 ++ i2) Q (p >>= fp) (s >>= fs) (fun T => y T >>= fy T) where
  plainZero hz := by
    by_cases h1 : 0 ∈ i1
    · exact AesM.bind_none (h.plainZero h1)
    · obtain ⟨v, hv, e⟩ := h.plain h1
      rw [AesM.bind_run e]
      exact (hf v v v hv hv hv).plainZero ((List.mem_append.1 hz).resolve_left h1)
  plain hz := by
    simp only [List.mem_append, not_or] at hz
    obtain ⟨v, hv, e⟩ := h.plain hz.1
    rw [AesM.bind_run e]
    exact (hf v v v hv hv hv).plain hz.2
  saveZero hz st := by
    by_cases h1 : 0 ∈ i1
    · obtain ⟨e, d, hd, hl, e'⟩ := h.saveZero h1 st
      have e'' : s st = (none, (s st).2) := Prod.ext e rfl
      rw [AesM.bind_none e'']
      exact ⟨rfl, d, hd.trans (List.prefix_append _ _), by rw [List.length_append]; omega, e'⟩
    · obtain ⟨v, hv, e⟩ := h.save h1 st
      rw [AesM.bind_run e]
      obtain ⟨e1, d, hd, hl, e2⟩ := (hf v v v hv hv hv).saveZero ((List.mem_append.1 hz).resolve_left h1) (st.1 ++ i1, st.2 ++ i1.map aesInv)
      refine ⟨e1, i1 ++ d, (List.prefix_append_right_inj _).2 hd, by simpa using hl, ?_⟩
      rw [e2, List.map_append, List.append_assoc, List.append_assoc]
  save hz st := by
    simp only [List.mem_append, not_or] at hz
    obtain ⟨v, hv, e⟩ := h.save hz.1 st
    rw [AesM.bind_run e]
    obtain ⟨w, hw, e'⟩ := (hf v v v hv hv hv).save hz.2 (st.1 ++ i1, st.2 ++ i1.map aesInv)
    exact ⟨w, hw, by rw [e', List.map_append, List.append_assoc, List.append_assoc]⟩
  share T st rest hT := by
    rw [List.map_append, List.append_assoc] at hT
    obtain ⟨v, hv, e⟩ := h.share T st _ hT
    rw [AesM.bind_run e]
    obtain ⟨w, hw, e'⟩ := (hf v v v hv hv hv).share T (st ++ i1) rest (by
      rw [List.length_append, ← List.drop_drop, hT, List.drop_left' (by simp)])
    exact ⟨w, hw, by rw [e', List.append_assoc]⟩
  conv T st v d hr hc := by
    obtain ⟨a, d1, e⟩ := hy T st
    obtain ⟨b, d2, e'⟩ := hm T a (st ++ d1)
    rw [AesM.bind_run e, e', Prod.mk.injEq, List.append_assoc] at hr
    have hd : d1 ++ d2 = d := List.append_cancel_left hr.2
    subst hd
    obtain ⟨g1, g2, g3⟩ := h.conv T st a d1 e (fun i hi => by
      have := hc i (by rw [List.length_append]; omega)
      rwa [List.getElem_append_left hi] at this)
    subst g1
    obtain ⟨k1, k2, k3⟩ := (hf a a a g2 g2 g2).conv T (st ++ d1) b d2 e' (fun i hi => by
      have := hc (d1.length + i) (by rw [List.length_append]; omega)
      rw [List.getElem_append_right (by omega)] at this
      simp only [Nat.add_sub_cancel_left] at this
      rw [List.length_append, Nat.add_assoc]
      exact this)
    subst k1
    exact ⟨rfl, (Option.some.inj hr.1) ▸ k2, fun hx => (List.mem_append.1 hx).elim g3 k3⟩

theorem Tr.cast {α : Type} {P : α → Prop} {i i' : Bytes} {p : AesM Unit α} {s : AesM Saved α} {y : Bytes → AesM Bytes α} (h : Tr i P p s y) (e : i = i') : Tr i' P p s y := e ▸ h

theorem Tr.imp {α : Type} {P Q : α → Prop} {i : Bytes} {p : AesM Unit α} {s : AesM Saved α} {y : Bytes → AesM Bytes α} (h : Tr i P p s y) (hPQ : ∀ v, P v → Q v) : Tr i Q p s y where
  plainZero := h.plainZero
  plain hz := by obtain ⟨v, hv, e⟩ := h.plain hz; exact ⟨v, hPQ v hv, e⟩
  saveZero := h.saveZero
  save hz st := by obtain ⟨v, hv, e⟩ := h.save hz st; exact ⟨v, hPQ v hv, e⟩
  share T st rest hT := by obtain ⟨v, hv, e⟩ := h.share T st rest hT; exact ⟨v, hPQ v hv, e⟩
  conv T st v d hr hc := by obtain ⟨h1, h2, h3⟩ := h.conv T st v d hr hc; exact ⟨h1, hPQ v h2, h3⟩

/-- Loops whose states are given by `S` and inputs by `ins`. -/
theorem Tr.foldlM {α β : Type} (n : Nat) (x : Nat → β) (S : Nat → α) (ins : Nat → Bytes)
    {fp : α → β → AesM Unit α} {fs : α → β → AesM Saved α} {fy : Bytes → α → β → AesM Bytes α}
    (h : ∀ i < n, Tr (ins i) (· = S (i + 1)) (fp (S i) (x i)) (fs (S i) (x i)) (fun T => fy T (S i) (x i))) (hm : ∀ T a b, Mono (fy T a b)) :
    Tr ((List.range n).flatMap ins) (· = S n) (((List.range n).map x).foldlM fp (S 0)) (((List.range n).map x).foldlM fs (S 0)) (fun T => ((List.range n).map x).foldlM (fy T) (S 0)) := by
  induction n with
  | zero => exact Tr.pure rfl rfl rfl
  | succ n ih =>
    simp only [List.range_succ, List.map_append, List.flatMap_append, List.map_singleton, List.flatMap_singleton, List.foldlM_append]
    refine Tr.bind (ih fun i hi => h i (by omega)) ?_ ?_ ?_
    · rintro _ _ _ rfl rfl rfl
      simp only [List.foldlM_cons, List.foldlM_nil]
      refine Tr.cast (Tr.bind (h n (by omega)) (i2 := []) ?_ (fun _ _ => Mono.pure _) (fun T => hm T _ _)) (List.append_nil _)
      intro a b c ha hb hc
      exact Tr.pure ha hb hc
    · intro T c
      exact Mono.foldlM _ (hm T) _
    · intro T
      exact Mono.foldlM _ (hm T) _

/-! ## Bytes -/

/-! ## Primitives -/

theorem saveBytes_run (bs : Bytes) (st : Saved) :
    (0 ∉ bs → saveBytes bs st = (some (), (st.1 ++ bs, st.2 ++ bs.map aesInv))) ∧
    (0 ∈ bs → ∃ d, d <+: bs ∧ d.length < bs.length ∧ saveBytes bs st = (none, (st.1 ++ d, st.2 ++ d.map aesInv))) := by
  induction bs generalizing st with
  | nil => exact ⟨fun _ => by simp [saveBytes]; rfl, fun h => by simp at h⟩
  | cons b bs ih =>
    have hc : saveBytes (b :: bs) = (saveByte b >>= fun _ => saveBytes bs) := rfl
    rw [hc]
    by_cases hb : b = 0
    · subst hb
      refine ⟨fun h => absurd List.mem_cons_self h, fun _ => ⟨[], List.nil_prefix, by simp, ?_⟩⟩
      have e : saveByte 0 st = (none, st) := rfl
      rw [AesM.bind_none e]
      simp
    · have e : saveByte b st = (some (), (st.1 ++ [b], st.2 ++ [aesInv b])) := by
        unfold saveByte
        rw [if_neg (by simpa using hb)]
      rw [AesM.bind_run e]
      obtain ⟨i1, i2⟩ := ih (st.1 ++ [b], st.2 ++ [aesInv b])
      refine ⟨fun h => ?_, fun h => ?_⟩
      · rw [i1 (fun hx => h (List.mem_cons_of_mem _ hx))]
        simp
      · obtain ⟨d, hd, hl, ed⟩ := i2 ((List.mem_cons.1 h).resolve_left (Ne.symm hb))
        refine ⟨b :: d, (List.prefix_cons_inj b).2 hd, by simpa using hl, ?_⟩
        rw [ed]
        simp

theorem checkNonzero_run {σ : Type} (bs : Bytes) (st : σ) : (0 ∉ bs → checkNonzero bs st = (some (), st)) ∧ (0 ∈ bs → checkNonzero bs st = (none, st)) := by
  unfold checkNonzero
  refine ⟨fun h => if_neg ?_, fun h => if_pos ?_⟩
  · rw [List.any_eq_true]
    rintro ⟨x, hx, h0⟩
    rw [beq_iff_eq] at h0
    exact h (h0 ▸ hx)
  · rw [List.any_eq_true]
    exact ⟨0, h, by simp⟩

theorem getD_drop_map {T l rest : Bytes} {n : Nat} (h : T.drop n = l ++ rest) (i : Nat) (hi : i < l.length) : T.getD (n + i) 0 = l[i] := by
  have : (T.drop n)[i]? = some l[i] := by rw [h, List.getElem?_append_left hi, List.getElem?_eq_getElem hi]
  rw [List.getElem?_drop] at this
  rw [List.getD_eq_getElem?_getD, this]
  rfl

/-- Word `k` of a register is the S-box of the four bytes, with `rc` added to the first. -/
def SubWordOf (k : Fin 4) (b : Vector Byte 4) (rc : Byte) (g : Blk) : Prop :=
  ∀ i (_ : i < 4), g[4 * k.val + i]'(by omega) = hwSbox b[i] ^^^ (if i = 0 then rc else 0)

theorem exchangeWord_value (k : Fin 4) (T : Bytes) (n : Nat) (b : Vector Byte 4) (rc : Byte) (h : ∀ i (_ : i < 4), T.getD (n + i) 0 = aesInv b[i]) :
    SubWordOf k b rc (Blk.ofWord k (Vector.ofFn fun i => affLin (T.getD (n + i.val) 0) ^^^ affConst ^^^ (if i.val = 0 then rc else 0))) := by
  intro i hi
  unfold Blk.ofWord
  rw [Vector.getElem_ofFn]
  have e1 : (4 * k.val + i) / 4 = k.val := by omega
  have e2 : (4 * k.val + i) % 4 = i := by omega
  simp only [e1, e2, if_true, Vector.getElem_ofFn]
  rw [h i hi, sbox_spec]

theorem word_tr (k : Fin 4) (b : Vector Byte 4) (rc : Byte) (chk : Bytes) (hchk : 0 ∈ chk ↔ 0 ∈ b.toList) {g : Blk} (hg : SubWordOf k b rc g) :
    Tr b.toList (SubWordOf k b rc) (do checkNonzero chk; Pure.pure g) (do saveBytes b.toList; Pure.pure g)
      (fun T => do let v ← exchangeWord T affConst rc b.toList; Pure.pure (Blk.ofWord k v)) where
  plainZero h := AesM.bind_none ((checkNonzero_run chk ()).2 (hchk.2 h))
  plain h := ⟨g, hg, AesM.bind_run ((checkNonzero_run chk ()).1 (fun hx => h (hchk.1 hx)))⟩
  saveZero h st := by
    obtain ⟨d, hd, hl, e⟩ := (saveBytes_run b.toList st).2 h
    rw [AesM.bind_none e]
    exact ⟨rfl, d, hd, hl, rfl⟩
  save h st := ⟨g, hg, by rw [AesM.bind_run ((saveBytes_run b.toList st).1 h)]; rfl⟩
  share T st rest hT := by
    refine ⟨_, exchangeWord_value k T st.length b rc (fun i hi => ?_), rfl⟩
    rw [getD_drop_map hT i (by simpa using hi)]
    simp
  conv T st v d hr hc := by
    have hd : b.toList = d := List.append_cancel_left (Prod.mk.inj hr).2
    subst hd
    have hall : ∀ i (hi : i < 4), b[i] ≠ 0 ∧ T.getD (st.length + i) 0 = aesInv b[i] := fun i hi => by
      have := aesMul_one (hc i (by simpa using hi))
      simpa using this
    refine ⟨rfl, ?_, ?_⟩
    · rw [← Option.some.inj (Prod.mk.inj hr).1]
      exact exchangeWord_value k T st.length b rc fun i hi => (hall i hi).2
    · intro h0
      obtain ⟨i, hi, e⟩ := List.getElem_of_mem h0
      exact (hall i (by simpa using hi)).1 (by simpa using e)

theorem word_mono (k : Fin 4) (T : Bytes) (aff rc : Byte) (b : Bytes) : Mono (do let v ← exchangeWord T aff rc b; Pure.pure (Blk.ofWord k v)) :=
  Mono.bind (fun _ => ⟨_, b, rfl⟩) fun _ => Mono.pure _

theorem kgen_tr (m : Blk) (rc : Byte) : Tr [m[13], m[14], m[15], m[12]] (SubWordOf 3 #v[m[13], m[14], m[15], m[12]] rc) (kgenPlain m rc) (kgenSave m rc) (fun T => kgenShare true T m rc) := by
  refine word_tr 3 #v[m[13], m[14], m[15], m[12]] rc [m[12], m[13], m[14], m[15]] ?_ ?_
  · simp
    tauto
  · intro i hi
    unfold Blk.keygenassist
    rw [Vector.getElem_ofFn]
    interval_cases i <;> simp [Vector.getD]

theorem kgen192_tr (m : Blk) (rc : Byte) : Tr [m[5], m[6], m[7], m[4]] (SubWordOf 1 #v[m[5], m[6], m[7], m[4]] rc) (kgenPlain192 m rc) (kgenSave192 m rc) (fun T => kgenShare192 true T m rc) := by
  refine word_tr 1 #v[m[5], m[6], m[7], m[4]] rc [m[4], m[5], m[6], m[7]] ?_ ?_
  · simp
    tauto
  · intro i hi
    unfold Blk.keygenassist
    rw [Vector.getElem_ofFn]
    interval_cases i <;> simp [Vector.getD]

theorem kgen256b_tr (m : Blk) : Tr [m[12], m[13], m[14], m[15]] (SubWordOf 2 #v[m[12], m[13], m[14], m[15]] 0) (kgenPlain m 0) (kgenSave256b m) (fun T => kgenShare256b true T m) := by
  refine word_tr 2 #v[m[12], m[13], m[14], m[15]] 0 [m[12], m[13], m[14], m[15]] Iff.rfl ?_
  intro i hi
  unfold Blk.keygenassist
  rw [Vector.getElem_ofFn]
  interval_cases i <;> simp [Vector.getD]

theorem mem_rowOrder (m : Blk) (x : Byte) : x ∈ m.rowOrder.toList ↔ x ∈ m.toList := by
  simp only [List.mem_iff_getElem, Vector.length_toList, Vector.getElem_toList, Blk.rowOrder, Vector.getElem_ofFn]
  constructor
  · rintro ⟨i, hi, e⟩
    exact ⟨i % 4 * 4 + i / 4, by omega, e⟩
  · rintro ⟨i, hi, e⟩
    refine ⟨i % 4 * 4 + i / 4, by omega, ?_⟩
    have : (i % 4 * 4 + i / 4) % 4 * 4 + (i % 4 * 4 + i / 4) / 4 = i := by omega
    simp only [this]
    exact e

theorem restoreIdx_row : ∀ i : Fin 16, (restoreIdx[i.val]).val % 4 * 4 + (restoreIdx[i.val]).val / 4 = 4 * ((i.val / 4 + i.val % 4) % 4) + i.val % 4 := by decide

theorem subOut_value (m loaded : Blk) (h : ∀ i (_ : i < 16), loaded[i] = aesInv (m.rowOrder[i])) : subOut true loaded = m.subShift := by
  apply Vector.ext
  intro i hi
  have hb : ∀ b : Byte, ((rotl8 b 1 ^^^ rotl8 b 3) ^^^ rotl8 (rotl8 b 1 ^^^ rotl8 b 3) 1) ^^^ b ^^^ affConst = affLin b ^^^ affConst := by
    have : ∀ b : Fin 256, ((rotl8 (BitVec.ofFin b) 1 ^^^ rotl8 (BitVec.ofFin b) 3) ^^^ rotl8 (rotl8 (BitVec.ofFin b) 1 ^^^ rotl8 (BitVec.ofFin b) 3) 1) ^^^ (BitVec.ofFin b : Byte) ^^^ affConst
        = affLin (BitVec.ofFin b) ^^^ affConst := by decide +kernel
    exact fun b => this b.toFin
  have e : (subOut true loaded)[i] = affLin (loaded[restoreIdx[i]]) ^^^ affConst := by
    rw [← hb]
    unfold subOut
    simp only [if_true, Blk.getElem_xor, Blk.rotl, Vector.getElem_ofFn, Vector.getElem_replicate, Fin.getElem_fin]
  rw [e, Fin.getElem_fin, h _ (restoreIdx[i]).isLt, ← sbox_spec]
  unfold Blk.subShift Blk.rowOrder
  simp only [Vector.getElem_ofFn]
  congr 2
  exact restoreIdx_row ⟨i, hi⟩

theorem sub_tr (m : Blk) : Tr m.rowOrder.toList (· = m.subShift) (subPlain m) (subSave m) (fun T => subShare true T m) where
  plainZero h := AesM.bind_none ((checkNonzero_run _ ()).2 ((mem_rowOrder m 0).1 h))
  plain h := ⟨_, rfl, AesM.bind_run ((checkNonzero_run _ ()).1 (fun hx => h ((mem_rowOrder m 0).2 hx)))⟩
  saveZero h st := by
    have e := (checkNonzero_run m.toList st).2 ((mem_rowOrder m 0).1 h)
    unfold subSave
    rw [AesM.bind_none e]
    exact ⟨rfl, [], List.nil_prefix, by simp, by simp⟩
  save h st := by
    refine ⟨_, rfl, ?_⟩
    unfold subSave
    rw [AesM.bind_run ((checkNonzero_run m.toList st).1 (fun hx => h ((mem_rowOrder m 0).2 hx))), AesM.bind_run ((saveBytes_run _ st).1 h)]
    rfl
  share T st rest hT := by
    refine ⟨_, ?_, subShare_run true T m st⟩
    refine subOut_value m _ fun i hi => ?_
    unfold loadBlk
    rw [Vector.getElem_ofFn]
    dsimp only
    rw [getD_drop_map hT i (by simpa using hi)]
    simp
  conv T st v d hr hc := by
    rw [subShare_run] at hr
    have hd : m.rowOrder.toList = d := List.append_cancel_left (Prod.mk.inj hr).2
    subst hd
    have hall : ∀ i (hi : i < 16), m.rowOrder[i] ≠ 0 ∧ T.getD (st.length + i) 0 = aesInv m.rowOrder[i] := fun i hi => by
      have := aesMul_one (hc i (by simpa using hi))
      simpa using this
    refine ⟨rfl, ?_, ?_⟩
    · rw [← Option.some.inj (Prod.mk.inj hr).1]
      refine subOut_value m _ fun i hi => ?_
      unfold loadBlk
      rw [Vector.getElem_ofFn]
      exact (hall i hi).2
    · intro h0
      obtain ⟨i, hi, e⟩ := List.getElem_of_mem h0
      exact (hall i (by simpa using hi)).1 (by simpa using e)

theorem sub_mono (f : Bool) (T : Bytes) (m : Blk) : Mono (subShare f T m) := fun st => ⟨_, _, subShare_run f T m st⟩

end Banquet
