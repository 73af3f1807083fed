import Verif.Spec.Rep
import Verif.Proofs.Binding
import Verif.Proofs.Product
import Verif.Proofs.AesMain
import Verif.Proofs.Shared

/-! The closed form of verification in terms of the specification of acceptance. -/

namespace Banquet

open Spec Polynomial FieldOk

/-! ## Encodings -/

theorem leNat_lt (bs : Bytes) : leNat bs < 256 ^ bs.length := by
  induction bs with
  | nil => simp [leNat]
  | cons b bs ih =>
    have : leNat (b :: bs) = b.toNat + 256 * leNat bs := rfl
    rw [this, List.length_cons, pow_succ]
    have := b.isLt
    omega

theorem leWord_eq (bs : Bytes) (h : bs.length ≤ 8) : leWord bs = BitVec.ofNat 64 (leNat bs) := by
  have key : ∀ bs : Bytes, bs.length ≤ 8 → (leWord bs).toNat = leNat bs := by
    intro bs
    induction bs with
    | nil => intro _; rfl
    | cons b bs ih =>
      intro h
      rw [List.length_cons] at h
      have e1 : leWord (b :: bs) = (leWord bs <<< 8) ||| b.setWidth 64 := rfl
      have e2 : leNat (b :: bs) = b.toNat + 256 * leNat bs := rfl
      have hl := leNat_lt bs
      have h7 : 256 ^ bs.length ≤ 256 ^ 7 := Nat.pow_le_pow_right (by norm_num) (by omega)
      have hb := b.isLt
      rw [e1, e2, BitVec.toNat_or, BitVec.toNat_shiftLeft, ih (by omega), BitVec.toNat_setWidth, Nat.mod_eq_of_lt (by omega : b.toNat < 2 ^ 64),
        Nat.shiftLeft_eq, Nat.mod_eq_of_lt (by norm_num at *; omega), ← Nat.shiftLeft_eq, ← Nat.shiftLeft_add_eq_or_of_lt (by omega), Nat.shiftLeft_eq]
      omega
  apply BitVec.eq_of_toNat_eq
  rw [key bs h, BitVec.toNat_ofNat, Nat.mod_eq_of_lt]
  have hl := leNat_lt bs
  have : 256 ^ bs.length ≤ 256 ^ 8 := Nat.pow_le_pow_right (by norm_num) h
  norm_num at *
  omega

section
variable {F : FieldState} [hF : FieldOk F]

omit hF in
theorem toBytes_eq (a : W64) : F.toBytes a = leDigits F.byteSize a := by
  unfold FieldState.toBytes leDigits
  refine List.map_congr_left fun i _ => ?_
  apply BitVec.eq_of_toNat_eq
  rw [BitVec.toNat_setWidth, BitVec.toNat_ushiftRight, BitVec.toNat_ofNat, Nat.shiftRight_eq_div_pow, show (256 : Nat) = 2 ^ 8 by norm_num, ← pow_mul]

/-- Reading a field element. -/
theorem fromBytes_eq (bs : Bytes) (h : bs.length ≤ F.byteSize) : F.fromBytes bs = BitVec.ofNat 64 (leNat bs) := by
  unfold FieldState.fromBytes
  rw [List.take_of_length_le h]
  exact leWord_eq bs (by have := le7 (F := F); omega)

/-! ## Shares -/

/-- The same data as in the closed forms. -/
def Spec.Rep.ctx (r : Rep) : Ctx := ⟨r.keyDelta, r.tDelta, r.pDelta, r.tape⟩

/-- Sizes. -/
structure Spec.Rep.Sized (I : Instance) (r : Rep) : Prop where
  keyDelta : r.keyDelta.length = I.aes.keySize
  tDelta : r.tDelta.length = I.aes.numSboxes
  tape : ∀ p, (r.tape p).length = I.tapeSize

theorem getD_slice (bs : Bytes) (off len i : Nat) (hi : i < len) : (slice bs off len).getD i 0 = bs.getD (off + i) 0 := by
  unfold slice
  rw [List.getD_eq_getElem?_getD, List.getD_eq_getElem?_getD, List.getElem?_take, if_pos hi, List.getElem?_drop]

theorem share_eq {n off : Nat} {delta tape : Bytes} (hd : delta.length = n) (ht : off + n ≤ tape.length) (p : Nat) :
    (if p = 0 then xorBytes delta (tapeBytes tape off n) else tapeBytes tape off n) =
      (List.range n).map fun i => tape.getD (off + i) 0 ^^^ (if p = 0 then delta.getD i 0 else 0) := by
  have hl : (tapeBytes tape off n).length = n := by unfold tapeBytes; exact slice_length ht
  have hi : ∀ i < n, (tapeBytes tape off n).getD i 0 = tape.getD (off + i) 0 := fun i hi => by
    unfold tapeBytes
    exact getD_slice _ _ _ _ hi
  split
  · refine ext_getD (n := n) 0 (by rw [length_xorBytes, hd, hl, Nat.min_self]) (by simp) fun i h => ?_
    rw [getD_xorBytes (hd.trans hl.symm), getD_range_map _ _ _ _ h, hi i h, BitVec.xor_comm]
  · refine ext_getD (n := n) 0 hl (by simp) fun i h => ?_
    rw [getD_range_map _ _ _ _ h, hi i h]
    exact BitVec.xor_zero.symm

omit hF in
theorem consistent_sizes {I : Instance} (hI : Consistent I) : (I.aes.keySize = 16 ∨ I.aes.keySize = 24 ∨ I.aes.keySize = 32) ∧ nBlocks I.aes.keySize = I.aes.numBlocks := by
  rcases hI.aes with h | h | h <;> (simp only [Prod.mk.injEq] at h; obtain ⟨h1, -, h3, -⟩ := h; rw [h1, h3])
  · exact ⟨.inl rfl, rfl⟩
  · exact ⟨.inr (.inl rfl), rfl⟩
  · exact ⟨.inr (.inr rfl), rfl⟩

namespace Spec.Rep
variable {I : Instance} {r : Rep}

omit hF in
theorem key_ctx (h : r.Sized I) (p : Nat) : r.ctx.key I p = r.key I p := by
  unfold Ctx.key Rep.key Rep.ctx
  have := share_eq (off := 0) h.keyDelta (by rw [h.tape p]; unfold Instance.tapeSize; omega) p
  simpa only [Nat.zero_add] using this

omit hF in
theorem t_ctx (h : r.Sized I) (p : Nat) : r.ctx.t I p = r.t I p := by
  unfold Ctx.t Rep.t Rep.ctx
  exact share_eq h.tDelta (by rw [h.tape p]; unfold Instance.tapeSize; omega) p

omit hF in
theorem aes_ctx (hI : Consistent I) (h : r.Sized I) (pt : Bytes) (p : Nat) : r.ctx.out I pt p = r.aes I pt p := by
  obtain ⟨hk, hn⟩ := consistent_sizes hI
  unfold Ctx.out Rep.aes
  rw [r.key_ctx h, r.t_ctx h, aesParty_sh _ hk, hn]

variable (hb : F.byteSize = I.lambda)
include hb

theorem elem_ctx (p i off : Nat) (ho : off = I.aes.keySize + I.aes.numSboxes + i * I.lambda) : val F.byteSize (F.fromBytes (tapeBytes (r.ctx.tape p) off I.lambda)) = r.elem I p F.byteSize i := by
  unfold Rep.elem Rep.ctx
  rw [fromBytes_eq]
  · rw [hb, ho]; rfl
  · unfold tapeBytes slice
    rw [List.length_take, hb]
    omega

theorem sVal_ctx (hI : Consistent I) (h : r.Sized I) {rs : List W64} (hrs : AllRed F.byteSize rs) (pt : Bytes) (p : Nat) {j : Nat} (hj : j < I.m1) (k : Nat) (hk : k < I.m2 + 1) :
    val F.byteSize (((r.ctx.sPts F I pt rs p).getD j []).getD k 0) = r.sVal I pt rs p j k F.byteSize := by
  obtain ⟨_, _, f1, f2⟩ := Ctx.sPts_facts (F := F) I pt r.ctx rs p hj
  unfold Rep.sVal
  split
  · rename_i hk'
    rw [f1 k hk', val_mul (hrs.getD j) (reduced_lift _), val_lift, r.aes_ctx hI h]
  · have : k = I.m2 := by omega
    rw [this, f2]
    exact elem_ctx hb p _ _ (by unfold Instance.pointPos; ring)

theorem tVal_ctx (h : r.Sized I) (p : Nat) {j : Nat} (hj : j < I.m1) (k : Nat) (hk : k < I.m2 + 1) :
    val F.byteSize (((r.ctx.tPts F I p).getD j []).getD k 0) = r.tVal I p j k F.byteSize := by
  obtain ⟨_, _, f1, f2⟩ := Ctx.tPts_facts (F := F) I r.ctx p hj
  unfold Rep.tVal
  split
  · rename_i hk'
    rw [f1 k hk', val_lift, r.t_ctx h]
  · have : k = I.m2 := by omega
    rw [this, f2]
    exact elem_ctx hb p _ _ (by unfold Instance.pointPos; ring)

theorem pVal_ctx {rs : List W64} (hrs : AllRed F.byteSize rs) (hd : AllRed F.byteSize r.pDelta) (p : Nat) (k : Nat) (hk : k < 2 * I.m2 + 1) :
    val F.byteSize ((r.ctx.pPts F I rs p).getD k 0) = r.pVal I rs p k F.byteSize := by
  obtain ⟨_, _, f1, f2⟩ := Ctx.pPts_facts (F := F) I r.ctx rs hrs hd p
  unfold Rep.pVal
  split
  · rename_i hk'
    rw [f1 k hk']
  · obtain ⟨i, rfl⟩ : ∃ i, k = I.m2 + i := ⟨k - I.m2, by omega⟩
    have e : val F.byteSize (r.ctx.pExtra I F p i) = r.elem I p F.byteSize (2 * I.m1 + i) := elem_ctx hb p _ _ (by unfold Instance.pPos; ring)
    rw [f2 i (by omega), add_comm, show I.m2 + i - I.m2 = i by omega, e]
    rfl

theorem evalAt_a (hI : Consistent I) (h : r.Sized I) (hm : 2 * I.m2 + 1 ≤ 21845) {rs : List W64} (hrs : AllRed F.byteSize rs) (pt : Bytes) {R : W64} (hR : Reduced F.byteSize R) (p : Nat) {j : Nat} (hj : j < I.m1) :
    EvalAt F.byteSize (I.m2 + 1) (fun k => r.sVal I pt rs p j k F.byteSize) R (r.ctx.a F I pt rs R p j) := by
  obtain ⟨f1, f2, _⟩ := Ctx.sPts_facts (F := F) I pt r.ctx rs p hj
  exact evalAt_congr (evalAt_dot (by omega) f1 f2 hR) fun k hk => sVal_ctx hb hI h hrs pt p hj k hk

theorem evalAt_b (h : r.Sized I) (hm : 2 * I.m2 + 1 ≤ 21845) {R : W64} (hR : Reduced F.byteSize R) (p : Nat) {j : Nat} (hj : j < I.m1) :
    EvalAt F.byteSize (I.m2 + 1) (fun k => r.tVal I p j k F.byteSize) R (r.ctx.b F I R p j) := by
  obtain ⟨f1, f2, _⟩ := Ctx.tPts_facts (F := F) I r.ctx p hj
  exact evalAt_congr (evalAt_dot (by omega) f1 f2 hR) fun k hk => tVal_ctx hb h p hj k hk

theorem evalAt_c (hm : 2 * I.m2 + 1 ≤ 21845) {rs : List W64} (hrs : AllRed F.byteSize rs) (hd : AllRed F.byteSize r.pDelta) {R : W64} (hR : Reduced F.byteSize R) (p : Nat) :
    EvalAt F.byteSize (2 * I.m2 + 1) (fun k => r.pVal I rs p k F.byteSize) R (r.ctx.pc F I rs R p) := by
  obtain ⟨f1, f2, _⟩ := Ctx.pPts_facts (F := F) I r.ctx rs hrs hd p
  exact evalAt_congr (evalAt_dot hm f1 f2 hR) fun k hk => pVal_ctx hb hrs hd p k hk

end Spec.Rep

/-- The share of the hidden party is the one completing the value. -/
theorem completing {n m : Nat} (hm : m < n) (f : Nat → W64) (hf : ∀ p < n, p ≠ m → Reduced F.byteSize (f p)) {x : W64} (hx : Reduced F.byteSize x) (y : W64) :
    (Reduced F.byteSize y ∧ ∑ p ∈ Finset.range n, val F.byteSize (if p = m then y else f p) = val F.byteSize x) ↔ y = ((List.range n).filter (· ≠ m)).foldl (fun acc q => gfAdd acc (f q)) x := by
  have hred : Reduced F.byteSize (((List.range n).filter (· ≠ m)).foldl (fun acc q => gfAdd acc (f q)) x) := reduced_sum _ _ _ hx fun q hq => hf q (filter_lt hq).1 (filter_lt hq).2
  have hs : ∀ y : W64, ∑ p ∈ Finset.range n, val F.byteSize (if p = m then y else f p) = val F.byteSize y + (((List.range n).filter (· ≠ m)).map fun q => val F.byteSize (f q)).sum := fun y => by
    rw [← list_sum_filter n m hm, if_pos rfl, List.map_congr_left (g := fun q => val F.byteSize (f q)) fun q hq => by rw [if_neg (filter_lt hq).2]]
  have hv := val_sum (F := F) ((List.range n).filter (· ≠ m)) f x
  rw [hs]
  generalize (((List.range n).filter (· ≠ m)).map fun q => val F.byteSize (f q)).sum = s at hv ⊢
  constructor
  · rintro ⟨h1, h2⟩
    refine val_inj h1 hred ?_
    rw [hv, ← h2, add_assoc, CharTwo.add_self_eq_zero, add_zero]
  · rintro rfl
    refine ⟨hred, ?_⟩
    rw [hv, add_assoc, CharTwo.add_self_eq_zero, add_zero]

end

/-! ## Broadcasts -/

theorem foldl_xor_init (l : List Byte) (x : Byte) : l.foldl (· ^^^ ·) x = x ^^^ l.foldl (· ^^^ ·) 0 := by
  induction l generalizing x with
  | nil => exact BitVec.xor_zero.symm
  | cons y ys ih =>
    rw [List.foldl_cons, List.foldl_cons, ih, ih (0 ^^^ y), ← BitVec.xor_assoc, ← BitVec.xor_assoc]
    congr 2
    exact BitVec.xor_zero.symm

theorem foldl_xor_split {n m : Nat} (hm : m < n) (f : Nat → Byte) :
    ((List.range n).map f).foldl (· ^^^ ·) 0 = f m ^^^ (((List.range n).filter (· ≠ m)).map f).foldl (· ^^^ ·) 0 := by
  have hp : (List.range n).Perm (m :: (List.range n).filter (· ≠ m)) := by
    have := List.perm_cons_erase (List.mem_range.2 hm)
    rwa [List.nodup_range.erase_eq_filter, show ((List.range n).filter fun x => x != m) = (List.range n).filter (· ≠ m) from List.filter_congr fun x _ => by by_cases hx : x = m <;> simp [hx]] at this
  have hc : RightCommutative (fun a b : Byte => a ^^^ b) := ⟨fun a b c => by rw [BitVec.xor_assoc, BitVec.xor_comm b, ← BitVec.xor_assoc]⟩
  rw [(hp.map f).foldl_eq, List.map_cons, List.foldl_cons, foldl_xor_init]
  congr 1
  exact BitVec.zero_xor

theorem getD_foldl_xorBytes {n : Nat} (l : List Nat) (f : Nat → Bytes) (hf : ∀ p ∈ l, (f p).length = n) (x : Bytes) (hx : x.length = n) (i : Nat) :
    (l.foldl (fun acc p => xorBytes (f p) acc) x).length = n ∧ (l.foldl (fun acc p => xorBytes (f p) acc) x).getD i 0 = x.getD i 0 ^^^ (l.map fun p => (f p).getD i 0).foldl (· ^^^ ·) 0 := by
  induction l generalizing x with
  | nil => exact ⟨hx, BitVec.xor_zero.symm⟩
  | cons p ps ih =>
    have hp := hf p (by simp)
    have hl : (xorBytes (f p) x).length = n := by rw [length_xorBytes, hp, hx, Nat.min_self]
    obtain ⟨h1, h2⟩ := ih (fun q hq => hf q (by simp [hq])) (xorBytes (f p) x) hl
    rw [List.foldl_cons]
    refine ⟨h1, ?_⟩
    rw [h2, getD_xorBytes (hp.trans hx.symm), List.map_cons, List.foldl_cons, foldl_xor_init _ (0 ^^^ _), ← BitVec.xor_assoc, BitVec.xor_comm ((f p).getD i 0)]
    congr 2
    exact BitVec.zero_xor.symm

/-- The broadcast of the hidden party is the one completing the ciphertext. -/
theorem completing_bytes {n m k : Nat} (hm : m < n) (f : Nat → Bytes) (hf : ∀ p < n, p ≠ m → (f p).length = k) {x : Bytes} (hx : x.length = k) (y : Bytes) :
    (y.length = k ∧ xorOf k ((List.range n).map fun p => if p = m then y else f p) = x) ↔ y = ((List.range n).filter (· ≠ m)).foldl (fun acc q => xorBytes (f q) acc) x := by
  have hg := getD_foldl_xorBytes ((List.range n).filter (· ≠ m)) f (fun p hp => hf p (filter_lt hp).1 (filter_lt hp).2) x hx
  have hs : ∀ (y : Bytes) (i : Nat), i < k → (xorOf k ((List.range n).map fun p => if p = m then y else f p)).getD i 0 = y.getD i 0 ^^^ (((List.range n).filter (· ≠ m)).map fun p => (f p).getD i 0).foldl (· ^^^ ·) 0 := by
    intro y i hi
    unfold xorOf
    rw [getD_range_map _ _ _ _ hi, List.map_map, foldl_xor_split hm]
    simp only [Function.comp, if_true]
    rw [List.map_congr_left (g := fun p => (f p).getD i 0) fun q hq => by simp only [Function.comp]; rw [if_neg (filter_lt hq).2]]
  constructor
  · rintro ⟨h1, h2⟩
    refine ext_getD (n := k) 0 h1 (hg 0).1 fun i hi => ?_
    rw [(hg i).2, ← h2, hs y i hi, BitVec.xor_assoc, BitVec.xor_self]
    exact BitVec.xor_zero.symm
  · rintro rfl
    refine ⟨(hg 0).1, ext_getD (n := k) 0 (length_xorOf _ _) hx fun i hi => ?_⟩
    rw [hs _ i hi, (hg i).2, BitVec.xor_assoc, BitVec.xor_self]
    exact BitVec.xor_zero

/-! ## Repetitions -/

section
variable {F : FieldState} [hF : FieldOk F]

theorem sum_if_congr {n m : Nat} (f g : Nat → W64) (h : ∀ p < n, p ≠ m → f p = g p) :
    ∑ p ∈ Finset.range n, val F.byteSize (f p) = ∑ p ∈ Finset.range n, val F.byteSize (if p = m then f m else g p) := by
  refine Finset.sum_congr rfl fun p hp => ?_
  by_cases hpm : p = m
  · rw [if_pos hpm, hpm]
  · rw [if_neg hpm, h p (Finset.mem_range.1 hp) hpm]

/-- What completes the opened shares is what the verifier computes. -/
theorem completes_iff {I : Instance} (hI : Consistent I) (hb : F.byteSize = I.lambda) {r : Rep} (h : r.Sized I) (hd : AllRed F.byteSize r.pDelta) {rs : List W64} (hrs : AllRed F.byteSize rs)
    {R : W64} (hR : Reduced F.byteSize R) {m : Nat} (hm : m < I.numParties) (pt : Bytes) {ct : Bytes} (hct : ct.length = I.ctSize) {cR : W64} (hcR : Reduced F.byteSize cR) {aR bR : List W64}
    (haR : AllRed F.byteSize aR) (hbR : AllRed F.byteSize bR) (bc : Nat → Bytes) (c : Nat → W64) (a b : Nat → Nat → W64) :
    Completes F.byteSize I pt ct r m rs R cR aR bR bc c a b ↔
      (∀ p < I.numParties, bc p = if p = m then r.ctx.ctMissing I pt ct m else (r.ctx.out I pt p).2) ∧
      (∀ p < I.numParties, c p = if p = m then ((List.range I.numParties).filter (· ≠ m)).foldl (fun acc q => gfAdd acc (r.ctx.pc F I rs R q)) cR else r.ctx.pc F I rs R p) ∧
      (∀ p < I.numParties, ∀ j < I.m1, a p j = if p = m then ((List.range I.numParties).filter (· ≠ m)).foldl (fun acc q => gfAdd acc (r.ctx.a F I pt rs R q j)) (aR.getD j 0) else r.ctx.a F I pt rs R p j) ∧
      (∀ p < I.numParties, ∀ j < I.m1, b p j = if p = m then ((List.range I.numParties).filter (· ≠ m)).foldl (fun acc q => gfAdd acc (r.ctx.b F I R q j)) (bR.getD j 0) else r.ctx.b F I R p j) := by
  have hm2 : 2 * I.m2 + 1 ≤ 21845 := hI.points
  have ea := fun p j (hj : j < I.m1) => Rep.evalAt_a hb hI h hm2 hrs pt hR p hj
  have eb := fun p j (hj : j < I.m1) => Rep.evalAt_b hb h hm2 hR p hj
  have ec := fun p => Rep.evalAt_c (F := F) (r := r) hb hm2 hrs hd hR p
  have hbc := completing_bytes hm (fun p => (r.ctx.out I pt p).2) (fun p _ _ => (out_length hI r.ctx pt p).2) hct
  have hxor : (∀ p < I.numParties, p ≠ m → bc p = (r.ctx.out I pt p).2) → (List.range I.numParties).map bc = (List.range I.numParties).map fun p => if p = m then bc m else (r.ctx.out I pt p).2 := fun ho =>
    List.map_congr_left fun p hp => by
      by_cases hpm : p = m
      · rw [if_pos hpm, hpm]
      · rw [if_neg hpm, ho p (List.mem_range.1 hp) hpm]
  constructor
  · rintro ⟨h1, h2, h3, h4, h5, h6, h7, h8⟩
    have c1 : ∀ p < I.numParties, p ≠ m → bc p = (r.ctx.out I pt p).2 := fun p hp hpm => by rw [h1 p hp hpm, r.aes_ctx hI h]
    have c3 : ∀ p < I.numParties, p ≠ m → c p = r.ctx.pc F I rs R p := fun p hp hpm => evalAt_unique hm2 (h3 p hp hpm) (ec p) fun _ _ => rfl
    have c5 : ∀ p < I.numParties, p ≠ m → ∀ j < I.m1, a p j = r.ctx.a F I pt rs R p j := fun p hp hpm j hj => evalAt_unique (by omega) (h5 p hp hpm j hj) (ea p j hj) fun _ _ => rfl
    have c7 : ∀ p < I.numParties, p ≠ m → ∀ j < I.m1, b p j = r.ctx.b F I R p j := fun p hp hpm j hj => evalAt_unique (by omega) (h7 p hp hpm j hj) (eb p j hj) fun _ _ => rfl
    rw [hxor c1] at h2
    refine ⟨fun p hp => ?_, fun p hp => ?_, fun p hp j hj => ?_, fun p hp j hj => ?_⟩
    · split
      · rename_i hpm
        rw [hpm]
        exact (hbc (bc m)).1 h2
      · rename_i hpm
        exact c1 p hp hpm
    · split
      · rename_i hpm
        rw [hpm]
        rw [sum_if_congr (m := m) c (r.ctx.pc F I rs R) c3] at h4
        exact (completing hm (r.ctx.pc F I rs R) (fun p _ _ => (ec p).1) hcR (c m)).1 h4
      · rename_i hpm
        exact c3 p hp hpm
    · split
      · rename_i hpm
        rw [hpm]
        have h6 := h6 j hj
        rw [sum_if_congr (m := m) (fun p => a p j) (fun p => r.ctx.a F I pt rs R p j) fun p hp hpm => c5 p hp hpm j hj] at h6
        exact (completing hm (fun p => r.ctx.a F I pt rs R p j) (fun p _ _ => (ea p j hj).1) (haR.getD j) (a m j)).1 h6
      · rename_i hpm
        exact c5 p hp hpm j hj
    · split
      · rename_i hpm
        rw [hpm]
        have h8 := h8 j hj
        rw [sum_if_congr (m := m) (fun p => b p j) (fun p => r.ctx.b F I R p j) fun p hp hpm => c7 p hp hpm j hj] at h8
        exact (completing hm (fun p => r.ctx.b F I R p j) (fun p _ _ => (eb p j hj).1) (hbR.getD j) (b m j)).1 h8
      · rename_i hpm
        exact c7 p hp hpm j hj
  · rintro ⟨h1, h3, h5, h7⟩
    have c1 : ∀ p < I.numParties, p ≠ m → bc p = (r.ctx.out I pt p).2 := fun p hp hpm => by rw [h1 p hp, if_neg hpm]
    have c3 : ∀ p < I.numParties, p ≠ m → c p = r.ctx.pc F I rs R p := fun p hp hpm => by rw [h3 p hp, if_neg hpm]
    have c5 : ∀ p < I.numParties, p ≠ m → ∀ j < I.m1, a p j = r.ctx.a F I pt rs R p j := fun p hp hpm j hj => by rw [h5 p hp j hj, if_neg hpm]
    have c7 : ∀ p < I.numParties, p ≠ m → ∀ j < I.m1, b p j = r.ctx.b F I R p j := fun p hp hpm j hj => by rw [h7 p hp j hj, if_neg hpm]
    have d1 := h1 m hm
    have d3 := h3 m hm
    rw [if_pos rfl] at d1 d3
    refine ⟨fun p hp hpm => by rw [c1 p hp hpm, r.aes_ctx hI h], ?_, fun p hp hpm => by rw [c3 p hp hpm]; exact ec p, ?_, fun p hp hpm j hj => by rw [c5 p hp hpm j hj]; exact ea p j hj, ?_,
      fun p hp hpm j hj => by rw [c7 p hp hpm j hj]; exact eb p j hj, ?_⟩
    · rw [hxor c1]
      exact (hbc (bc m)).2 d1
    · rw [sum_if_congr (m := m) c (r.ctx.pc F I rs R) c3]
      exact (completing hm (r.ctx.pc F I rs R) (fun p _ _ => (ec p).1) hcR (c m)).2 d3
    · intro j hj
      have d5 := h5 m hm j hj
      rw [if_pos rfl] at d5
      rw [sum_if_congr (m := m) (fun p => a p j) (fun p => r.ctx.a F I pt rs R p j) fun p hp hpm => c5 p hp hpm j hj]
      exact (completing hm (fun p => r.ctx.a F I pt rs R p j) (fun p _ _ => (ea p j hj).1) (haR.getD j) (a m j)).2 d5
    · intro j hj
      have d7 := h7 m hm j hj
      rw [if_pos rfl] at d7
      rw [sum_if_congr (m := m) (fun p => b p j) (fun p => r.ctx.b F I R p j) fun p hp hpm => c7 p hp hpm j hj]
      exact (completing hm (fun p => r.ctx.b F I R p j) (fun p _ _ => (eb p j hj).1) (hbR.getD j) (b m j)).2 d7

end

end Banquet
