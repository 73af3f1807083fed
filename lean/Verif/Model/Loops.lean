import Verif.Model.Banquet
import Verif.Model.Container

/-! `banquet_sign` and `banquet_verify` (banquet.cpp:290-1194) statement by statement: the vectors and containers of the code as mutable state, the loops in the order of the code, and a check for every access through an
index, a span or an iterator. Banquet.lean has the same functions per repetition and party, without the bookkeeping. Hash functions, field, AES without shares and seed trees are taken from there.
An access outside the vector is `Err.ub`. Spans are offsets into the flat vector of their container (types.h:46-77), and their iterators are plain pointers (gsl-lite.hpp:2810), so a range that leaves the span but stays
in the vector hits the next slot. `operator[]` and `subspan` of spans check their arguments and terminate (gsl-lite.hpp:3071-3078, 3108-3113): `Err.abort`. Assertions are off (Release).
Dead stores (`P_e`, `ct` in sign, `reserve`) are left out. -/

namespace Banquet.Loops

/-! ## Vectors and loops -/

variable {α σ : Type}

/-- `v[i]` read. -/
def rd (v : List α) (i : Nat) : M α :=
  match v[i]? with
  | some x => .ok x
  | none => .error .ub

/-- `v[i] = x`. -/
def wr (v : List α) (i : Nat) (x : α) : M (List α) := if i < v.length then .ok (v.set i x) else .error .ub

/-- `v[i][j]` read. -/
def rd2 (v : List (List α)) (i j : Nat) : M α := do
  let r ← rd v i
  rd r j

/-- `v[i][j][k]` read. -/
def rd3 (v : List (List (List α))) (i j k : Nat) : M α := do
  let r ← rd v i
  rd2 r j k

/-- `v[i][j] = x`. -/
def wr2 (v : List (List α)) (i j : Nat) (x : α) : M (List (List α)) := do
  let r ← rd v i
  let r ← wr r j x
  wr v i r

/-- `v[i][j][k] = x`. -/
def wr3 (v : List (List (List α))) (i j k : Nat) (x : α) : M (List (List (List α))) := do
  let r ← rd v i
  let r ← wr2 r j k x
  wr v i r

/-- `v.resize(n)`: `z` is the value of new elements. -/
def resized (v : List α) (n : Nat) (z : α) : List α := v.take n ++ List.replicate (n - v.length) z

/-- `for (size_t i = 0; i < n; i++)`. -/
def forTo (n : Nat) (body : Nat → σ → M σ) (s : σ) : M σ := (List.range n).foldlM (fun s i => body i s) s

/-- `for (; i < b; i += step)` from `i = a`. -/
def forStep (a b step : Nat) (body : Nat → σ → M σ) (s : σ) : M σ := forTo ((b - a + (step - 1)) / step) (fun i => body (a + step * i)) s

/-- `std::transform(begin(src), end(src), begin(dst), begin(dst), bit_xor)` on vectors: as long as `src` is. -/
def xorOnto (src dst : Bytes) : M Bytes := do
  require .ub (decide (src.length ≤ dst.length))
  .ok (xorBytes src dst ++ dst.drop src.length)

/-! ## Containers (types.h:46-77) -/

/-- All elements of the span `get(repetition, party)`. -/
def get (c : RepContainer α) (e p : Nat) : M (List α) := do
  require .ub (decide (c.offset e p + c.objectSize ≤ c.data.length))
  .ok (c.read e p)

/-- Write `vals` from the begin of the span `get(repetition, party)` on, however long they are (`std::copy`, `hash_squeeze`). -/
def fill (c : RepContainer α) (e p : Nat) (vals : List α) : M (RepContainer α) := do
  require .ub (decide (c.offset e p + vals.length ≤ c.data.length))
  .ok (c.write e p vals)

/-- `std::transform(begin(src), end(src), begin(span), begin(span), bit_xor)` for `span = get(repetition, party)`. -/
def xorInto (c : RepContainer Byte) (e p : Nat) (src : Bytes) : M (RepContainer Byte) := do
  require .ub (decide (c.offset e p + src.length ≤ c.data.length))
  .ok (c.write e p (xorBytes src (slice c.data (c.offset e p) src.length)))

/-- `get(repetition, party)[j]` read. -/
def spanRd (c : RepContainer α) (e p j : Nat) : M α := do
  require .abort (decide (j < c.objectSize))
  rd c.data (c.offset e p + j)

/-- `get(repetition, party)[j] = x`. -/
def spanWr (c : RepContainer α) (e p j : Nat) (x : α) : M (RepContainer α) := do
  require .abort (decide (j < c.objectSize))
  let d ← wr c.data (c.offset e p + j) x
  .ok { c with data := d }

/-- `RandomTapes::get_bytes` (tape.cpp:56-60). `subspan` checks its range (gsl-lite.hpp:3071-3078). -/
def getBytes (tapes : RepContainer Byte) (e p start len : Nat) : M Bytes := do
  let t ← get tapes e p
  require .abort (decide (start + len ≤ t.length))
  .ok (slice t start len)

/-- `x.from_bytes(b.data() + off)` (field.cpp:182-186). The range is checked against `b`, also where `b` is a span into a longer vector and the code would read on in that (only with the field of another instance). -/
def fromPtr (F : FieldState) (b : Bytes) (off : Nat) : M W64 := do
  require .ub (decide (off + F.byteSize ≤ b.length))
  .ok (F.fromBytes (b.drop off))

/-! ## Hash inputs -/

/-- The bytes hashed by `phase_1_commitment` (banquet.cpp:96-112). -/
def phase1Bytes (I : Instance) (salt pk msg : Bytes) (coms : RepContainer Byte) (keyDeltas tDeltas : List Bytes) (bcasts : RepContainer Byte) : M Bytes :=
  forTo I.numRounds (fun e acc => do
    let acc ← forTo I.numParties (fun p acc => do
      let c ← get coms e p
      let b ← get bcasts e p
      .ok (acc ++ c ++ b)) acc
    let k ← rd keyDeltas e
    let t ← rd tDeltas e
    .ok (acc ++ k ++ t)) ([1] ++ salt ++ pk ++ msg)

/-- The bytes hashed by `phase_2_commitment` (banquet.cpp:149-157). -/
def phase2Bytes (F : FieldState) (I : Instance) (salt h1 : Bytes) (pDeltas : List (List W64)) : M Bytes :=
  forTo I.numRounds (fun e => forTo I.m2 (fun k acc => do
    let x ← rd2 pDeltas e k
    .ok (acc ++ gfHash F x))) ([2] ++ salt ++ h1)

/-- The vectors hashed by `phase_3_commitment` (banquet.cpp:681-689, 725-726). -/
structure Views where
  c : List W64
  cShares : List (List W64)
  a : List (List W64)
  b : List (List W64)
  aShares : RepContainer W64
  bShares : RepContainer W64

/-- See `Views`. -/
def Views.start (I : Instance) : Views :=
  ⟨List.replicate I.numRounds 0, List.replicate I.numRounds [], List.replicate I.numRounds [], List.replicate I.numRounds [], .mk' 0 I.numRounds I.numParties I.m1, .mk' 0 I.numRounds I.numParties I.m1⟩

/-- The bytes hashed by `phase_3_commitment` (banquet.cpp:209-228). -/
def phase3Bytes (F : FieldState) (I : Instance) (salt h2 : Bytes) (v : Views) : M Bytes :=
  forTo I.numRounds (fun e acc => do
    let x ← rd v.c e
    let acc := acc ++ gfHash F x
    let acc ← forTo I.numParties (fun p acc => do
      let x ← rd2 v.cShares e p
      .ok (acc ++ gfHash F x)) acc
    forTo I.m1 (fun j acc => do
      let x ← rd2 v.a e j
      let y ← rd2 v.b e j
      forTo I.numParties (fun p acc => do
        let x ← spanRd v.aShares e p j
        let y ← spanRd v.bShares e p j
        .ok (acc ++ gfHash F x ++ gfHash F y)) (acc ++ gfHash F x ++ gfHash F y)) acc) ([3] ++ salt ++ h2)

/-! ## Shared by sign and verify -/

/-- One call of `commit_to_4_party_seeds` (banquet.cpp:65-85): reads `seed_size` bytes of each seed, writes `digest_size` bytes through each span. -/
def commit4 (X : Xof) (I : Instance) (s0 s1 s2 s3 salt : Bytes) (e p : Nat) (coms : RepContainer Byte) : M (RepContainer Byte) := do
  require .ub (decide (I.seedSize ≤ s0.length ∧ I.seedSize ≤ s1.length ∧ I.seedSize ≤ s2.length ∧ I.seedSize ≤ s3.length))
  let coms ← fill coms e p (commitLane X I s0 salt e p)
  let coms ← fill coms e (p + 1) (commitLane X I s1 salt e (p + 1))
  let coms ← fill coms e (p + 2) (commitLane X I s2 salt e (p + 2))
  fill coms e (p + 3) (commitLane X I s3 salt e (p + 3))

/-! ### `aes_*_s_shares` on the spans of one repetition (aes.cpp:519-633, 864-1047, 1282-1473) -/

/-- What the functions change: `sbox_index` and the `s` shares of all parties. `err` is the failure, if there was one. -/
structure Spans where
  index : Nat
  s : RepContainer Byte
  err : Err

/-- A step that can fail. -/
def Spans.step (f : Spans → M (α × Spans)) : AesM Spans α := fun st =>
  match f st with
  | .ok r => (some r.1, r.2)
  | .error e => (none, { st with err := e })

/-- Run a sequence of steps from `sbox_index = i`. -/
def Spans.run (x : AesM Spans α) (i : Nat) (s : RepContainer Byte) : M (α × RepContainer Byte) :=
  match x ⟨i, s, .ub⟩ with
  | (some a, st) => .ok (a, st.s)
  | (none, st) => .error st.err

/-- `s_shares[party][sbox_index] = s; t = t_shares[party][sbox_index++]` (aes.cpp:95-96). -/
def exchange (t : RepContainer Byte) (e p : Nat) (b : Byte) : AesM Spans Byte := Spans.step fun st => do
  let s ← spanWr st.s e p st.index b
  let x ← spanRd t e p st.index
  .ok (x, ⟨st.index + 1, s, st.err⟩)

/-- Four bytes of the key schedule (aes.cpp:92-113, 124-145, 151-172, 178-199). -/
def exchange4 (t : RepContainer Byte) (e p : Nat) (affine rcon b0 b1 b2 b3 : Byte) : AesM Spans (Vector Byte 4) := do
  let t0 ← exchange t e p b0
  let t1 ← exchange t e p b1
  let t2 ← exchange t e p b2
  let t3 ← exchange t e p b3
  Pure.pure #v[affLin t0 ^^^ affine ^^^ rcon, affLin t1 ^^^ affine, affLin t2 ^^^ affine, affLin t3 ^^^ affine]

/-- `AES_128_key_exp_restore` up to the keygened register (aes.cpp:89-113) and `AES_256_key_exp_restore` (aes.cpp:148-173), with the constants that the callers pass. -/
def kgenSpan (t : RepContainer Byte) (e p : Nat) (m : Blk) (rcon : Byte) : AesM Spans Blk := do
  let v ← exchange4 t e p (if p == 0 then affConst else 0) (if p == 0 then rcon else 0) m[13] m[14] m[15] m[12]
  Pure.pure (Blk.ofWord 3 v)

/-- `AES_192_key_exp_restore` (aes.cpp:121-146). -/
def kgenSpan192 (t : RepContainer Byte) (e p : Nat) (m : Blk) (rcon : Byte) : AesM Spans Blk := do
  let v ← exchange4 t e p (if p == 0 then affConst else 0) (if p == 0 then rcon else 0) m[5] m[6] m[7] m[4]
  Pure.pure (Blk.ofWord 1 v)

/-- `AES_256_key_exp_restore_2` (aes.cpp:175-200). -/
def kgenSpan256b (t : RepContainer Byte) (e p : Nat) (m : Blk) : AesM Spans Blk := do
  let v ← exchange4 t e p (if p == 0 then affConst else 0) 0 m[12] m[13] m[14] m[15]
  Pure.pure (Blk.ofWord 2 v)

/-- Write `v` from position `o` of the vector on. -/
def put (c : RepContainer Byte) (o : Nat) (v : Bytes) : RepContainer Byte := { c with data := c.data.take o ++ v ++ c.data.drop (o + v.length) }

/-- `_mm_storeu_si128((__m128i *)(&span[j]), m)` (aes.cpp:369): the index is checked, the 16 bytes from there are not. -/
def store16 (c : RepContainer Byte) (e p j : Nat) (m : Blk) : M (RepContainer Byte) := do
  require .abort (decide (j < c.objectSize))
  require .ub (decide (c.offset e p + j + 16 ≤ c.data.length))
  .ok (put c (c.offset e p + j) m.toList)

/-- `_mm_loadu_si128((const __m128i *)(&span[j]))` (aes.cpp:370). -/
def load16 (c : RepContainer Byte) (e p j : Nat) : M Blk := do
  require .abort (decide (j < c.objectSize))
  require .ub (decide (c.offset e p + j + 16 ≤ c.data.length))
  .ok (loadBlk c.data (c.offset e p + j))

/-- `restore_t_shares` (aes.cpp:364-379). -/
def subSpan (t : RepContainer Byte) (e p : Nat) (m : Blk) : AesM Spans Blk := Spans.step fun st => do
  let s ← store16 st.s e p st.index m.rowOrder
  let loaded ← load16 t e p st.index
  let sh : Blk := Vector.ofFn fun i => loaded[restoreIdx[i]]
  let tmp := (sh.rotl 1).xor (sh.rotl 3)
  let tmp := tmp.xor (tmp.rotl 1)
  let r := tmp.xor sh
  .ok (if p == 0 then r.xor (Vector.replicate 16 affConst) else r, ⟨st.index + 16, s, st.err⟩)

/-- `n` bytes from the begin of the span (aes.cpp:536, 572, 883-886, 942-945, 1299-1300, 1361-1362). -/
def loadSpan (c : RepContainer Byte) (e p n : Nat) : M Bytes := do
  require .ub (decide (c.offset e p + n ≤ c.data.length))
  .ok (slice c.data (c.offset e p) n)

/-- The key schedule of one party (aes.cpp:533-593, 877-995, 1296-1415): round keys and new `s` shares. -/
def keySpans (keySize : Nat) (keys ts : RepContainer Byte) (e p : Nat) (s : RepContainer Byte) : M (List Blk × RepContainer Byte) := do
  let k ← loadSpan keys e p keySize
  if keySize = 16 then Spans.run (keySched128 (kgenSpan ts e p) (loadBlk k 0)) 0 s
  else if keySize = 24 then Spans.run (keySched192 (kgenSpan192 ts e p) (loadBlk k 0) (loadBlk k 16)) 0 s
  else Spans.run (keySched256 (kgenSpan ts e p) (kgenSpan256b ts e p) (loadBlk k 0) (loadBlk k 16)) 0 s

/-- The value of `sbox_index` before the rounds of block `b` (aes.cpp:595, 999, 1419). -/
def roundIndex (keySize b : Nat) : Nat := if keySize = 16 then 40 else if keySize = 24 then 32 + b * 192 else 52 + b * 224

/-- The first state of block `b` (aes.cpp:596-599, 1000-1004, 1420-1424). -/
def startBlk (pt : Bytes) (b p : Nat) : M Blk :=
  if p == 0 then do
    require .ub (decide (16 * b + 16 ≤ pt.length))
    .ok (loadBlk pt (16 * b))
  else .ok (Vector.replicate 16 0)

/-- Block `b` of one party (aes.cpp:595-631, 999-1044, 1419-1470): new ciphertext and `s` shares. -/
def blockSpans (keySize : Nat) (pt : Bytes) (ts : RepContainer Byte) (e b p : Nat) (ks : List Blk) (st : RepContainer Byte × RepContainer Byte) : M (RepContainer Byte × RepContainer Byte) := do
  let m ← startBlk pt b p
  let (m, s) ← Spans.run (rounds (subSpan ts e p) Blk.imc3 ks m) (roundIndex keySize b) st.2
  require .ub (decide (st.1.offset e p + 16 * b + 16 ≤ st.1.data.length))
  .ok (put st.1 (st.1.offset e p + 16 * b) m.toList, s)

/-- The call of `aes_*_s_shares` for one repetition (banquet.cpp:428-445, 931-947): reads key and `t` shares, writes ciphertext and `s` shares. The 128-bit version has one block, the others two. -/
def aesRep (I : Instance) (pt : Bytes) (e : Nat) (keys ts : RepContainer Byte) (st : RepContainer Byte × RepContainer Byte) : M (RepContainer Byte × RepContainer Byte) := do
  checkAes I.aes
  let (ks, s) ← forTo I.numParties (fun p (st : List (List Blk) × RepContainer Byte) => do
    let (k, s) ← keySpans I.aes.keySize keys ts e p st.2
    .ok (st.1 ++ [k], s)) ([], st.2)
  forTo (if I.aes.keySize = 16 then 1 else 2) (fun b => forTo I.numParties fun p st => do
    let k ← rd ks p
    blockSpans I.aes.keySize pt ts e b p k st) (st.1, s)

/-- `lifted_s` and `lifted_t` (banquet.cpp:556-566, 1002-1012). -/
def lifted (F : FieldState) (I : Instance) (shares : RepContainer Byte) (e p : Nat) : M (List W64) :=
  forTo I.aes.numSboxes (fun i l => do
    let x ← spanRd shares e p i
    .ok (l ++ [F.lift x])) []

/-- Points of one `j` (banquet.cpp:575-590, 1019-1034): fills `s_bar` and `t_bar`, which keep their contents between iterations. -/
def bars (F : FieldState) (I : Instance) (rss : List (List W64)) (tapes : RepContainer Byte) (e p : Nat) (ls lt : List W64) (j : Nat) (st : List W64 × List W64) : M (List W64 × List W64) := do
  let st ← forTo I.m2 (fun k (st : List W64 × List W64) => do
    let r ← rd2 rss e j
    let x ← rd ls (j + I.m1 * k)
    let sb ← wr st.1 k (F.mul r x)
    let y ← rd lt (j + I.m1 * k)
    let tb ← wr st.2 k y
    .ok (sb, tb)) st
  let b ← getBytes tapes e p (I.pointPos j) (2 * I.lambda)
  let x ← fromPtr F b 0
  let sb ← wr st.1 I.m2 x
  let y ← fromPtr F b I.lambda
  let tb ← wr st.2 I.m2 y
  .ok (sb, tb)

/-- The first `m2` shares of `P` of one party (banquet.cpp:620-631, 1048-1059). -/
def pFirst (I : Instance) (rss : List (List W64)) (e p : Nat) (ps : List (List W64)) : M (List (List W64)) :=
  if p = 0 then do
    let sumR ← forTo I.m1 (fun j acc => do
      let r ← rd2 rss e j
      .ok (gfAdd acc r)) 0
    forTo I.m2 (fun k ps => wr2 ps p k sumR) ps
  else forTo I.m2 (fun k ps => wr2 ps p k 0) ps

/-- Shares of `P` of one party (banquet.cpp:617-646, 1046-1072), `P_shares[party]` having been resized. -/
def pParty (F : FieldState) (I : Instance) (rss : List (List W64)) (tapes : RepContainer Byte) (e p : Nat) (ps : List (List W64)) : M (List (List W64)) := do
  let row ← rd ps p
  let ps ← wr ps p (resized row (2 * I.m2 + 1) 0)
  let ps ← pFirst I rss e p ps
  let b ← getBytes tapes e p I.pPos ((I.m2 + 1) * I.lambda)
  forStep I.m2 (2 * I.m2 + 1) 1 (fun k ps => do
    let x ← fromPtr F b ((k - I.m2) * I.lambda)
    wr2 ps p k x) ps

/-- `lagrange_polys_evaluated_at_Re_*` (banquet.cpp:692-699, 1107-1114): the vectors are reused by all repetitions. -/
def lags (F : FieldState) (n : Nat) (polys : List (List W64)) (R : W64) (l : List W64) : M (List W64) :=
  forTo n (fun k l => do
    let q ← rd polys k
    wr l k (F.eval q R)) l

/-- `accum += a[j] * b[j]` (banquet.cpp:763-766, 1184-1188). -/
def accum (F : FieldState) (I : Instance) (a b : List W64) : M W64 :=
  forTo I.m1 (fun j acc => do
    let x ← rd a j
    let y ← rd b j
    .ok (gfAdd acc (F.mul x y))) 0

/-! ## Signing -/

/-- Trees, commitments and tapes (banquet.cpp:324-335). -/
structure Trees where
  trees : List SeedTree
  coms : RepContainer Byte
  tapes : RepContainer Byte

/-- banquet.cpp:337-369, one repetition. -/
def signTree (X : Xof) (I : Instance) (salt : Bytes) (seeds : List Bytes) (e : Nat) (st : Trees) : M Trees := do
  let seed ← rd seeds e
  let tree ← SeedTree.ofSeed X seed I.numParties salt e
  let trees := st.trees ++ [tree]
  let coms ← forStep 0 (I.numParties / 4 * 4) 4 (fun p coms => do
    let t ← rd trees e
    let s0 ← leafValue t p
    let s1 ← leafValue t (p + 1)
    let s2 ← leafValue t (p + 2)
    let s3 ← leafValue t (p + 3)
    commit4 X I s0 s1 s2 s3 salt e p coms) st.coms
  let coms ← forStep (I.numParties / 4 * 4) I.numParties 1 (fun p coms => do
    let t ← rd trees e
    let s ← leafValue t p
    fill coms e p (commitSingle X I s salt e p)) coms
  let tapes ← forTo I.numParties (fun p tapes => do
    let t ← rd trees e
    let s ← leafValue t p
    fill tapes e p (genTape X I.tapeSize s salt e p)) st.tapes
  .ok ⟨trees, coms, tapes⟩

/-- Containers of phase 1 (banquet.cpp:373-384). -/
structure Shares where
  keys : RepContainer Byte
  bcasts : RepContainer Byte
  s : RepContainer Byte
  t : RepContainer Byte
  keyDeltas : List Bytes
  tDeltas : List Bytes

/-- Sharing of one value (banquet.cpp:389-408 and 410-426): `start` is the position in the tape and `len` the length read from there. -/
def signShare (I : Instance) (tapes : RepContainer Byte) (start len e : Nat) (value : Bytes) (c : RepContainer Byte) : M (RepContainer Byte × Bytes) := do
  let r ← forTo I.numParties (fun p (st : RepContainer Byte × Bytes) => do
    let b ← getBytes tapes e p start len
    let c ← fill st.1 e p b
    let share ← get c e p
    let d ← xorOnto share st.2
    .ok (c, d)) (c, value)
  let c ← xorInto r.1 e 0 r.2
  .ok (c, r.2)

/-- banquet.cpp:386-461, one repetition. `shared_key.size()` is the object size of its container. -/
def signShares (I : Instance) (key pt savedT : Bytes) (tapes : RepContainer Byte) (e : Nat) (st : Shares) : M Shares := do
  let (keys, keyDelta) ← signShare I tapes 0 st.keys.objectSize e key st.keys
  let (t, tDelta) ← signShare I tapes I.aes.keySize I.aes.numSboxes e savedT st.t
  let (ct, s) ← aesRep I pt e keys t (st.bcasts, st.s)
  .ok ⟨keys, ct, s, t, st.keyDeltas ++ [keyDelta], st.tDeltas ++ [tDelta]⟩

/-- Products of one `j` (banquet.cpp:519-537). -/
def signProduct (F : FieldState) (I : Instance) (lagM2 : List (List W64)) (last : List W64) (saved : Saved) (j : Nat) (st : List (List W64) × List (List W64) × List (List W64)) :
    M (List (List W64) × List (List W64) × List (List W64)) := do
  let (S, T) ← forTo I.m2 (fun k (st : List W64 × List W64) => do
    let x ← rd saved.1 (j + I.m1 * k)
    let S ← wr st.1 k (F.lift x)
    let y ← rd saved.2 (j + I.m1 * k)
    let T ← wr st.2 k (F.lift y)
    .ok (S, T)) (List.replicate (I.m2 + 1) 0, List.replicate (I.m2 + 1) 0)
  let S ← wr S I.m2 0
  let T ← wr T I.m2 0
  let S ← F.interpolate lagM2 S
  let T ← F.interpolate lagM2 T
  let x ← F.polyMul S T
  let st1 ← wr st.1 j x
  let y ← F.polyMul S last
  let st2 ← wr st.2.1 j y
  let z ← F.polyMul T last
  let st3 ← wr st.2.2 j z
  .ok (st1, st2, st3)

/-- Vectors of phase 3 (banquet.cpp:493-517). -/
structure Polys where
  sP : List (List (List (List W64)))
  tP : List (List (List (List W64)))
  pShares : List (List (List W64))
  pDeltas : List (List W64)
  sRand : List (List W64)
  tRand : List (List W64)

/-- See `Polys`. -/
def Polys.start (T : Nat) : Polys := ⟨List.replicate T [], List.replicate T [], List.replicate T [], List.replicate T [], List.replicate T [], List.replicate T []⟩

/-- The parts of `Polys` that the loop over `j` changes. -/
structure Points where
  sP : List (List (List (List W64)))
  tP : List (List (List (List W64)))
  sRand : List (List W64)
  tRand : List (List W64)

/-- banquet.cpp:551-595: one party. -/
def signPoints (F : FieldState) (I : Instance) (rss : List (List W64)) (tapes s t : RepContainer Byte) (e p : Nat) (st : Points) : M Points := do
  let row ← rd2 st.sP e p
  let sP ← wr2 st.sP e p (resized row I.m1 [])
  let row ← rd2 st.tP e p
  let tP ← wr2 st.tP e p (resized row I.m1 [])
  let ls ← lifted F I s e p
  let lt ← lifted F I t e p
  let r ← forTo I.m1 (fun j (st : Points × List W64 × List W64) => do
    let (sb, tb) ← bars F I rss tapes e p ls lt j st.2
    let x ← rd2 st.1.sRand e j
    let dx ← rd sb I.m2
    let sRand ← wr2 st.1.sRand e j (gfAdd x dx)
    let y ← rd2 st.1.tRand e j
    let dy ← rd tb I.m2
    let tRand ← wr2 st.1.tRand e j (gfAdd y dy)
    let sP ← wr3 st.1.sP e p j sb
    let tP ← wr3 st.1.tP e p j tb
    .ok (⟨sP, tP, sRand, tRand⟩, sb, tb)) (⟨sP, tP, st.sRand, st.tRand⟩, List.replicate (I.m2 + 1) 0, List.replicate (I.m2 + 1) 0)
  .ok r.1

/-- `P` (banquet.cpp:598-612). -/
def signPoly (F : FieldState) (I : Instance) (rss sRand tRand : List (List W64)) (lastSq : List W64) (ST SL TL : List (List W64)) (e : Nat) : M (List W64) :=
  forTo I.m1 (fun j P => do
    let r ← rd2 rss e j
    let st ← rd ST j
    let t ← rd2 tRand e j
    let sl ← rd SL j
    let u ← vecAdd st (F.vecScale sl t)
    let s ← rd2 sRand e j
    let tl ← rd TL j
    let v ← vecAdd (F.vecScale u r) (F.vecScale tl s)
    let w ← vecAdd v (F.vecScale (F.vecScale lastSq s) t)
    vecAdd P w) (List.replicate (2 * I.m2 + 1) 0)

/-- banquet.cpp:540-656, one repetition. -/
def signPolys (F : FieldState) (I : Instance) (xs2 : List W64) (lastSq : List W64) (ST SL TL : List (List W64)) (rss : List (List W64)) (tapes s t : RepContainer Byte) (e : Nat) (st : Polys) : M Polys := do
  let row ← rd st.sP e
  let sP ← wr st.sP e (resized row I.numParties [])
  let row ← rd st.tP e
  let tP ← wr st.tP e (resized row I.numParties [])
  let row ← rd st.pDeltas e
  let pDeltas ← wr st.pDeltas e (resized row (I.m2 + 1) 0)
  let row ← rd st.sRand e
  let sRand ← wr st.sRand e (resized row I.m1 0)
  let row ← rd st.tRand e
  let tRand ← wr st.tRand e (resized row I.m1 0)
  let pts ← forTo I.numParties (signPoints F I rss tapes s t e) ⟨sP, tP, sRand, tRand⟩
  let P ← signPoly F I rss pts.sRand pts.tRand lastSq ST SL TL e
  let row ← rd st.pShares e
  let ps ← forTo I.numParties (pParty F I rss tapes e) (resized row I.numParties [])
  let (ps, pDeltas) ← forStep I.m2 (2 * I.m2 + 1) 1 (fun k (st : List (List W64) × List (List W64)) => do
    let x ← rd xs2 k
    let d ← forTo I.numParties (fun p d => do
      let y ← rd2 st.1 p k
      .ok (gfAdd d y)) (F.eval P x)
    let pDeltas ← wr2 st.2 e (k - I.m2) d
    let y ← rd2 st.1 0 k
    let ps ← wr2 st.1 0 k (gfAdd y d)
    .ok (ps, pDeltas)) (ps, pDeltas)
  let pShares ← wr st.pShares e ps
  .ok ⟨pts.sP, pts.tP, pShares, pDeltas, pts.sRand, pts.tRand⟩

/-- banquet.cpp:691-724, one repetition. The last two components are the vectors of banquet.cpp:684-686. -/
def signViews (F : FieldState) (I : Instance) (lagM2 lag2M2 : List (List W64)) (Rs : List W64) (P : Polys) (e : Nat) (st : Views × List W64 × List W64) : M (Views × List W64 × List W64) := do
  let row ← rd st.1.cShares e
  let cShares ← wr st.1.cShares e (resized row I.numParties 0)
  let row ← rd st.1.a e
  let a ← wr st.1.a e (resized row I.m1 0)
  let row ← rd st.1.b e
  let b ← wr st.1.b e (resized row I.m1 0)
  let R ← rd Rs e
  let l1 ← lags F (I.m2 + 1) lagM2 R st.2.1
  let l2 ← lags F (2 * I.m2 + 1) lag2M2 R st.2.2
  let (cShares, aShares, bShares) ← forTo I.numParties (fun p (st : List (List W64) × RepContainer W64 × RepContainer W64) => do
    let (aS, bS) ← forTo I.m1 (fun j (st : RepContainer W64 × RepContainer W64) => do
      let x ← rd3 P.sP e p j
      let v ← F.dot l1 x
      let aS ← spanWr st.1 e p j v
      let y ← rd3 P.tP e p j
      let w ← F.dot l1 y
      let bS ← spanWr st.2 e p j w
      .ok (aS, bS)) st.2
    let z ← rd2 P.pShares e p
    let v ← F.dot l2 z
    let cS ← wr2 st.1 e p v
    .ok (cS, aS, bS)) (cShares, st.1.aShares, st.1.bShares)
  let (c, a, b) ← forTo I.numParties (fun p (st : List W64 × List (List W64) × List (List W64)) => do
    let x ← rd st.1 e
    let dx ← rd2 cShares e p
    let c ← wr st.1 e (gfAdd x dx)
    let (a, b) ← forTo I.m1 (fun j (st : List (List W64) × List (List W64)) => do
      let x ← rd2 st.1 e j
      let dx ← spanRd aShares e p j
      let a ← wr2 st.1 e j (gfAdd x dx)
      let y ← rd2 st.2 e j
      let dy ← spanRd bShares e p j
      let b ← wr2 st.2 e j (gfAdd y dy)
      .ok (a, b)) st.2
    .ok (c, a, b)) (st.1.c, a, b)
  .ok (⟨c, cShares, a, b, aShares, bShares⟩, l1, l2)

/-- banquet.cpp:745-770, one repetition. -/
def signProof (F : FieldState) (I : Instance) (missing : List Nat) (reveals : List RevealList) (coms : RepContainer Byte) (sh : Shares) (pDeltas : List (List W64)) (v : Views) (e : Nat) (proofs : List Proof) :
    M (List Proof) := do
  let m ← rd missing e
  let com ← get coms e m
  require .ub (decide (com.length ≤ I.digestSize))
  let rl ← rd reveals e
  let kd ← rd sh.keyDeltas e
  let td ← rd sh.tDeltas e
  let pd ← rd pDeltas e
  let c ← rd v.c e
  let a ← rd v.a e
  let b ← rd v.b e
  let acc ← accum F I a b
  if acc ≠ c then .error .thrown else .ok (proofs ++ [⟨rl, com ++ List.replicate (I.digestSize - com.length) 0, kd, td, pd, c, a, b⟩])

/-- `banquet_sign` after the field initialisation (banquet.cpp:296-774). The AES functions read `key_size` bytes of the key. -/
def signWith (X : Xof) (fuel : Nat) (F : FieldState) (I : Instance) (sk pk msg : Bytes) : M Signature := do
  require .ub (decide (2 * I.ctSize ≤ pk.length))
  let pt := slice pk 0 I.ctSize
  checkAes I.aes
  require .ub (decide (I.aes.keySize ≤ sk.length))
  let saved := (aesSave I.aes.keySize (sk.take I.aes.keySize) pt).2
  let salt := genSalt X I sk pk msg
  let seeds := (List.range I.numRounds).map (genSeed X I sk pk msg)
  let tr ← forTo I.numRounds (signTree X I salt seeds) ⟨[], .mk' 0 I.numRounds I.numParties I.digestSize, .mk' 0 I.numRounds I.numParties I.tapeSize⟩
  let sh ← forTo I.numRounds (signShares I sk pt saved.2 tr.tapes)
    ⟨.mk' 0 I.numRounds I.numParties I.aes.keySize, .mk' 0 I.numRounds I.numParties I.ctSize, .mk' 0 I.numRounds I.numParties I.aes.numSboxes, .mk' 0 I.numRounds I.numParties I.aes.numSboxes, [], []⟩
  let in1 ← phase1Bytes I salt pk msg tr.coms sh.keyDeltas sh.tDeltas sh.bcasts
  let h1 := (X (kindOf I.digestSize) in1).squeeze 0 I.digestSize
  let rss := phase1Expand X F I h1
  let P := precomp F I
  let last ← rd P.lagM2 I.m2
  let lastSq ← F.polyMul last last
  let (ST, SL, TL) ← forTo I.m1 (signProduct F I P.lagM2 last saved) (List.replicate I.m1 [], List.replicate I.m1 [], List.replicate I.m1 [])
  let po ← forTo I.numRounds (signPolys F I P.xs2 lastSq ST SL TL rss tr.tapes sh.s sh.t) (Polys.start I.numRounds)
  let in2 ← phase2Bytes F I salt h1 po.pDeltas
  let h2 := (X (kindOf I.digestSize) in2).squeeze 0 I.digestSize
  let Rs ← phase2Expand X fuel F I h2 (F.firstN I.m2)
  let vi ← forTo I.numRounds (signViews F I P.lagM2 P.lag2M2 Rs po)
    (Views.start I, List.replicate (I.m2 + 1) 0, List.replicate (2 * I.m2 + 1) 0)
  let in3 ← phase3Bytes F I salt h2 vi.1
  let h3 := (X (kindOf I.digestSize) in3).squeeze 0 I.digestSize
  let missing ← phase3Expand X fuel I h3
  let reveals ← forTo I.numRounds (fun e l => do
    let t ← rd tr.trees e
    let m ← rd missing e
    .ok (l ++ [t.revealAllBut m])) []
  let proofs ← forTo I.numRounds (signProof F I missing reveals tr.coms sh po.pDeltas vi.1) []
  .ok ⟨salt, h1, h3, proofs⟩

/-- `banquet_sign` (banquet.cpp:290-775). -/
def sign (X : Xof) (fuel : Nat) (I : Instance) (sk pk msg : Bytes) : M Signature := do
  let F ← initExtensionField I.lambda
  signWith X fuel F I sk pk msg

/-! ## Verification -/

/-- `get_leaf(party).value_or(dummy)`; `get_leaf` itself is `SeedTree.getLeaf` (tree.cpp). -/
def leafOr (t : SeedTree) (p : Nat) (dummy : Bytes) : Bytes := (t.getLeaf p).getD dummy

/-- `generate_4_tapes` (tape.cpp:18-41): all four seeds are read with the length of the first one; the slots are those of the `uint16_t` party numbers. -/
def tapes4 (X : Xof) (I : Instance) (s0 s1 s2 s3 salt : Bytes) (e p : Nat) (tapes : RepContainer Byte) : M (RepContainer Byte) := do
  require .ub (decide (s0.length ≤ s1.length ∧ s0.length ≤ s2.length ∧ s0.length ≤ s3.length))
  let tapes ← fill tapes e (p % 65536) (genTapeLane X I.tapeSize s0.length s0 salt e p)
  let tapes ← fill tapes e ((p + 1) % 65536) (genTapeLane X I.tapeSize s0.length s1 salt e (p + 1))
  let tapes ← fill tapes e ((p + 2) % 65536) (genTapeLane X I.tapeSize s0.length s2 salt e (p + 2))
  fill tapes e ((p + 3) % 65536) (genTapeLane X I.tapeSize s0.length s3 salt e (p + 3))

/-- banquet.cpp:826-882, one repetition. `dummy` is the zero seed of banquet.cpp:837 and 867. -/
def verTree (X : Xof) (dummy : Bytes) (I : Instance) (sig : Signature) (missing : List Nat) (e : Nat) (st : Trees) : M Trees := do
  let proof ← rd sig.proofs e
  let m ← rd missing e
  require .thrown (decide (m = proof.reveal.missing))
  let tree ← SeedTree.ofReveal X proof.reveal I.numParties sig.salt e
  let trees := st.trees ++ [tree]
  let coms ← forStep 0 (I.numParties / 4 * 4) 4 (fun p coms => do
    let t ← rd trees e
    commit4 X I (leafOr t p dummy) (leafOr t (p + 1) dummy) (leafOr t (p + 2) dummy) (leafOr t (p + 3) dummy) sig.salt e p coms) st.coms
  let coms ← forStep (I.numParties / 4 * 4) I.numParties 1 (fun p coms =>
    if p ≠ m then do
      let t ← rd trees e
      let s ← leafValue t p
      fill coms e p (commitSingle X I s sig.salt e p)
    else .ok coms) coms
  let coms ← fill coms e m proof.cE
  let tapes ← forStep 0 (I.numParties / 4 * 4) 4 (fun p tapes => do
    let t ← rd trees e
    tapes4 X I (leafOr t p dummy) (leafOr t (p + 1) dummy) (leafOr t (p + 2) dummy) (leafOr t (p + 3) dummy) sig.salt e p tapes) st.tapes
  let tapes ← forStep (I.numParties / 4 * 4) I.numParties 1 (fun p tapes => do
    let t ← rd trees e
    fill tapes e p (genTape X I.tapeSize (leafOr t p dummy) sig.salt e p)) tapes
  .ok ⟨trees, coms, tapes⟩

/-- Containers of banquet.cpp:886-895. -/
structure VerShares where
  keys : RepContainer Byte
  s : RepContainer Byte
  t : RepContainer Byte
  bcasts : RepContainer Byte

/-- Sharing of one value (banquet.cpp:900-913 and 915-928). -/
def verShare (I : Instance) (tapes : RepContainer Byte) (start len e : Nat) (delta : Bytes) (c : RepContainer Byte) : M (RepContainer Byte) := do
  let c ← forTo I.numParties (fun p c => do
    let b ← getBytes tapes e p start len
    fill c e p b) c
  xorInto c e 0 delta

/-- banquet.cpp:897-959, one repetition. -/
def verShares (I : Instance) (pt ct : Bytes) (sig : Signature) (missing : List Nat) (tapes : RepContainer Byte) (e : Nat) (st : VerShares) : M VerShares := do
  let proof ← rd sig.proofs e
  let keys ← verShare I tapes 0 st.keys.objectSize e proof.skDelta st.keys
  let t ← verShare I tapes I.aes.keySize I.aes.numSboxes e proof.tDelta st.t
  let (cts, s) ← aesRep I pt e keys t (st.bcasts, st.s)
  let m ← rd missing e
  require .ub (decide (m < cts.numParties))
  let cts ← fill cts e m ct
  let cts ← forTo I.numParties (fun p cts =>
    if p ≠ m then do
      let b ← get cts e p
      xorInto cts e m b
    else .ok cts) cts
  .ok ⟨keys, s, t, cts⟩

/-- Vectors of banquet.cpp:976-985. -/
structure VerPolys where
  sP : List (List (List (List W64)))
  tP : List (List (List (List W64)))
  pShares : List (List (List W64))

/-- See `VerPolys`. -/
def VerPolys.start (T : Nat) : VerPolys := ⟨List.replicate T [], List.replicate T [], List.replicate T []⟩

/-- banquet.cpp:1000-1037: one opened party. -/
def verPoints (F : FieldState) (I : Instance) (rss : List (List W64)) (tapes s t : RepContainer Byte) (e p : Nat) (st : List (List (List (List W64))) × List (List (List (List W64)))) :
    M (List (List (List (List W64))) × List (List (List (List W64)))) := do
  let row ← rd2 st.1 e p
  let sP ← wr2 st.1 e p (resized row I.m1 [])
  let row ← rd2 st.2 e p
  let tP ← wr2 st.2 e p (resized row I.m1 [])
  let ls ← lifted F I s e p
  let lt ← lifted F I t e p
  let r ← forTo I.m1 (fun j (st : (List (List (List (List W64))) × List (List (List (List W64)))) × List W64 × List W64) => do
    let (sb, tb) ← bars F I rss tapes e p ls lt j st.2
    let sP ← wr3 st.1.1 e p j sb
    let tP ← wr3 st.1.2 e p j tb
    .ok ((sP, tP), sb, tb)) ((sP, tP), List.replicate (I.m2 + 1) 0, List.replicate (I.m2 + 1) 0)
  .ok r.1

/-- banquet.cpp:1073-1078. -/
def verAdjust (I : Instance) (m : Nat) (pDelta : List W64) (ps : List (List W64)) : M (List (List W64)) :=
  if 0 ≠ m then
    forStep I.m2 (2 * I.m2 + 1) 1 (fun k ps => do
      let x ← rd2 ps 0 k
      let d ← rd pDelta (k - I.m2)
      wr2 ps 0 k (gfAdd x d)) ps
  else .ok ps

/-- banquet.cpp:987-1086, one repetition. -/
def verPolys (F : FieldState) (I : Instance) (sig : Signature) (missing : List Nat) (rss : List (List W64)) (tapes s t : RepContainer Byte) (e : Nat) (st : VerPolys) : M VerPolys := do
  let proof ← rd sig.proofs e
  let row ← rd st.sP e
  let sP ← wr st.sP e (resized row I.numParties [])
  let row ← rd st.tP e
  let tP ← wr st.tP e (resized row I.numParties [])
  let m ← rd missing e
  let (sP, tP) ← forTo I.numParties (fun p st => if p ≠ m then verPoints F I rss tapes s t e p st else .ok st) (sP, tP)
  let row ← rd st.pShares e
  let ps ← forTo I.numParties (fun p ps => if p ≠ m then pParty F I rss tapes e p ps else .ok ps) (resized row I.numParties [])
  let ps ← verAdjust I m proof.pDelta ps
  let pShares ← wr st.pShares e ps
  .ok ⟨sP, tP, pShares⟩

/-- banquet.cpp:1103-1158, one repetition. -/
def verViews (F : FieldState) (I : Instance) (sig : Signature) (missing : List Nat) (lagM2 lag2M2 : List (List W64)) (Rs : List W64) (P : VerPolys) (e : Nat) (st : Views × List W64 × List W64) :
    M (Views × List W64 × List W64) := do
  let proof ← rd sig.proofs e
  let m ← rd missing e
  let R ← rd Rs e
  let l1 ← lags F (I.m2 + 1) lagM2 R st.2.1
  let l2 ← lags F (2 * I.m2 + 1) lag2M2 R st.2.2
  let row ← rd st.1.cShares e
  let cShares ← wr st.1.cShares e (resized row I.numParties 0)
  let row ← rd st.1.a e
  let a ← wr st.1.a e (resized row I.m1 0)
  let row ← rd st.1.b e
  let b ← wr st.1.b e (resized row I.m1 0)
  let (cShares, aShares, bShares) ← forTo I.numParties (fun p (st : List (List W64) × RepContainer W64 × RepContainer W64) =>
    if p ≠ m then do
      let (aS, bS) ← forTo I.m1 (fun j (st : RepContainer W64 × RepContainer W64) => do
        let x ← rd3 P.sP e p j
        let v ← F.dot l1 x
        let aS ← spanWr st.1 e p j v
        let y ← rd3 P.tP e p j
        let w ← F.dot l1 y
        let bS ← spanWr st.2 e p j w
        .ok (aS, bS)) st.2
      let z ← rd2 P.pShares e p
      let v ← F.dot l2 z
      let cS ← wr2 st.1 e p v
      .ok (cS, aS, bS)
    else .ok st) (cShares, st.1.aShares, st.1.bShares)
  let c ← wr st.1.c e proof.pAtR
  let cShares ← wr2 cShares e m proof.pAtR
  let (a, aShares, b, bShares) ← forTo I.m1 (fun j (st : List (List W64) × RepContainer W64 × List (List W64) × RepContainer W64) => do
    let x ← rd proof.sAtR j
    let a ← wr2 st.1 e j x
    let aS ← spanWr st.2.1 e m j x
    let y ← rd proof.tAtR j
    let b ← wr2 st.2.2.1 e j y
    let bS ← spanWr st.2.2.2 e m j y
    .ok (a, aS, b, bS)) (a, aShares, b, bShares)
  let (cShares, aShares, bShares) ← forTo I.numParties (fun p (st : List (List W64) × RepContainer W64 × RepContainer W64) =>
    if p ≠ m then do
      let x ← rd2 st.1 e m
      let dx ← rd2 st.1 e p
      let cS ← wr2 st.1 e m (gfAdd x dx)
      let (aS, bS) ← forTo I.m1 (fun j (st : RepContainer W64 × RepContainer W64) => do
        let x ← spanRd st.1 e m j
        let dx ← spanRd st.1 e p j
        let aS ← spanWr st.1 e m j (gfAdd x dx)
        let y ← spanRd st.2 e m j
        let dy ← spanRd st.2 e p j
        let bS ← spanWr st.2 e m j (gfAdd y dy)
        .ok (aS, bS)) st.2
      .ok (cS, aS, bS)
    else .ok st) (cShares, aShares, bShares)
  .ok (⟨c, cShares, a, b, aShares, bShares⟩, l1, l2)

/-- The last loop of `banquet_verify` (banquet.cpp:1183-1192): `false` once a repetition has failed. -/
def verSums (F : FieldState) (I : Instance) (sig : Signature) : M Bool :=
  forTo I.numRounds (fun e ok =>
    if ok then do
      let proof ← rd sig.proofs e
      let acc ← accum F I proof.sAtR proof.tAtR
      .ok (decide (acc = proof.pAtR))
    else .ok false) true

/-- `banquet_verify` after the field initialisation (banquet.cpp:785-1193). -/
def verifyWith (X : Xof) (dummy : Bytes) (fuel : Nat) (F : FieldState) (I : Instance) (pk : Bytes) (sig : Signature) (msg : Bytes) : M Bool := do
  require .ub (decide (2 * I.ctSize ≤ pk.length))
  let pt := slice pk 0 I.ctSize
  let ct := slice pk I.ctSize I.ctSize
  let in2 ← phase2Bytes F I sig.salt sig.h1 (sig.proofs.map (·.pDelta))
  let h2 := (X (kindOf I.digestSize) in2).squeeze 0 I.digestSize
  let rss := phase1Expand X F I sig.h1
  let Rs ← phase2Expand X fuel F I h2 (F.firstN I.m2)
  let missing ← phase3Expand X fuel I sig.h3
  let tr ← forTo I.numRounds (verTree X dummy I sig missing) ⟨[], .mk' 0 I.numRounds I.numParties I.digestSize, .mk' 0 I.numRounds I.numParties I.tapeSize⟩
  let sh ← forTo I.numRounds (verShares I pt ct sig missing tr.tapes)
    ⟨.mk' 0 I.numRounds I.numParties I.aes.keySize, .mk' 0 I.numRounds I.numParties I.aes.numSboxes, .mk' 0 I.numRounds I.numParties I.aes.numSboxes, .mk' 0 I.numRounds I.numParties I.ctSize⟩
  let P := precomp F I
  let po ← forTo I.numRounds (verPolys F I sig missing rss tr.tapes sh.s sh.t) (VerPolys.start I.numRounds)
  let vi ← forTo I.numRounds (verViews F I sig missing P.lagM2 P.lag2M2 Rs po) (Views.start I, List.replicate (I.m2 + 1) 0, List.replicate (2 * I.m2 + 1) 0)
  let in1 ← phase1Bytes I sig.salt pk msg tr.coms (sig.proofs.map (·.skDelta)) (sig.proofs.map (·.tDelta)) sh.bcasts
  let h1 := (X (kindOf I.digestSize) in1).squeeze 0 I.digestSize
  let in3 ← phase3Bytes F I sig.salt h2 vi.1
  let h3 := (X (kindOf I.digestSize) in3).squeeze 0 I.digestSize
  require .ub (decide (h1.length ≤ sig.h1.length))
  if h1 ≠ sig.h1.take h1.length then .ok false
  else do
    require .ub (decide (h3.length ≤ sig.h3.length))
    if h3 ≠ sig.h3.take h3.length then .ok false else verSums F I sig

/-- `banquet_verify` (banquet.cpp:777-1194). -/
def verify (X : Xof) (fuel : Nat) (I : Instance) (pk : Bytes) (sig : Signature) (msg : Bytes) : M Bool := do
  let F ← initExtensionField I.lambda
  verifyWith X (List.replicate I.seedSize 0) fuel F I pk sig msg

end Banquet.Loops
