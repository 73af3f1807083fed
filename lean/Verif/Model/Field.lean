import Verif.Model.Basic
import Verif.Model.Instances

/-! Model of field.h and field.cpp: GF(2^(8λ)) on 64-bit words. -/

namespace Banquet

/-- `__m128i` holding a carry-less product. -/
abbrev W128 := BitVec 128

/-- `clmul` (field.cpp:31-33): `_mm_clmulepi64_si128` with immediate 0, the carry-less product of two 64-bit words. Semantics from the Intel manual
(PCLMULQDQ): XOR of `a` shifted by every position at which `b` has a one. -/
def clmul (a b : W64) : W128 :=
  (List.range 64).foldl (fun acc i => if b.getLsbD i then acc ^^^ (a.setWidth 128 <<< i) else acc) 0

/-- `_mm_cvtsi128_si64`, `_mm_extract_epi64(x, 0)`. -/
def lo64 (x : W128) : W64 := x.setWidth 64
/-- `_mm_extract_epi64(x, 1)`. -/
def hi64 (x : W128) : W64 := (x >>> 64).setWidth 64

/-- `reduce_GF2_16` (field.cpp:35-46). -/
def reduce16 (x : W128) : W64 :=
  let rLower := lo64 x
  let rUpper := rLower >>> 16
  let t := rUpper
  let rUpper := rUpper ^^^ (t >>> 11) ^^^ (t >>> 13) ^^^ (t >>> 15)
  let rLower := rLower ^^^ (rUpper <<< 5) ^^^ (rUpper <<< 3) ^^^ (rUpper <<< 1) ^^^ (rUpper <<< 0)
  0xFFFF#64 &&& rLower

/-- `reduce_GF2_32_barret` (field.cpp:49-58). Not called by the library. -/
def reduce32Barret (x : W128) : W64 :=
  let p : W64 := (1#64 <<< 32) ||| (1#64 <<< 7) ||| (1#64 <<< 3) ||| (1#64 <<< 2) ||| (1#64 <<< 0)
  let mu : W64 := p
  let r := lo64 x
  let t1 := lo64 (clmul (r >>> 32) mu)
  let t2 := lo64 (clmul (t1 >>> 32) p)
  0xFFFFFFFF#64 &&& (r ^^^ t2)

/-- `reduce_GF2_32` (field.cpp:59-70). -/
def reduce32 (x : W128) : W64 :=
  let rLower := lo64 x
  let rUpper := rLower >>> 32
  let t := rUpper
  let rUpper := rUpper ^^^ (t >>> 25) ^^^ (t >>> 29) ^^^ (t >>> 30)
  let rLower := rLower ^^^ (rUpper <<< 7) ^^^ (rUpper <<< 3) ^^^ (rUpper <<< 2) ^^^ (rUpper <<< 0)
  0xFFFFFFFF#64 &&& rLower

/-- `reduce_GF2_40` (field.cpp:72-85). -/
def reduce40 (x : W128) : W64 :=
  let rLower := lo64 x
  let rUpper := ((hi64 x &&& 0xFFFF#64) <<< 24) ||| (rLower >>> 40)
  let t := rUpper
  let rUpper := rUpper ^^^ (t >>> 35) ^^^ (t >>> 36) ^^^ (t >>> 37)
  let rLower := rLower ^^^ (rUpper <<< 5) ^^^ (rUpper <<< 4) ^^^ (rUpper <<< 3) ^^^ (rUpper <<< 0)
  0xFFFFFFFFFF#64 &&& rLower

/-- `reduce_GF2_48` (field.cpp:87-99). -/
def reduce48 (x : W128) : W64 :=
  let rLower := lo64 x
  let rUpper := ((hi64 x &&& 0xFFFFFFFF#64) <<< 16) ||| (rLower >>> 48)
  let t := rUpper
  let rUpper := rUpper ^^^ (t >>> 43) ^^^ (t >>> 45) ^^^ (t >>> 46)
  let rLower := rLower ^^^ (rUpper <<< 5) ^^^ (rUpper <<< 3) ^^^ (rUpper <<< 2) ^^^ (rUpper <<< 0)
  0xFFFFFFFFFFFF#64 &&& rLower

/-- `__builtin_clzl(x)` for `x ≠ 0` on 64 bits. For `x = 0` the builtin is undefined; the model returns the arbitrary number `z`. -/
def builtinClz64 (z : Nat) (x : W64) : Nat := if x = 0 then z else 63 - Nat.log2 x.toNat

/-- The loop of `GF2_euclidean_div_quotient` (field.cpp:104-108). `z` is what `__builtin_clzl(0)` happens to return, `fuel` bounds the iterations
(`none`: not finished). `diff` is an `int` and can be negative. -/
def divQuotientLoop (z : Nat) (b : W64) : Nat → W64 → W64 → Int → Option W64
  | 0, _, _, _ => none
  | fuel + 1, a, quotient, diff =>
    if diff ≥ 0 ∧ a ≠ 0 then
      let quotient := quotient ||| (1#64 <<< diff.toNat)
      let a := a ^^^ (b <<< diff.toNat)
      divQuotientLoop z b fuel a quotient ((builtinClz64 z b : Int) - builtinClz64 z a)
    else some quotient

/-- `GF2_euclidean_div_quotient` (field.cpp:101-110). -/
def divQuotient (z fuel : Nat) (a b : W64) : Option W64 :=
  divQuotientLoop z b fuel a 0 ((builtinClz64 z b : Int) - builtinClz64 z a)

/-- The loop of `mod_inverse` (field.cpp:119-127). -/
def modInverseLoop (z : Nat) : Nat → (t newT r newR : W64) → Option W64
  | 0, _, _, _, _ => none
  | fuel + 1, t, newT, r, newR =>
    if newR ≠ 0 then do
      let quotient ← divQuotient z 65 r newR
      modInverseLoop z fuel newT (t ^^^ lo64 (clmul quotient newT)) newR (r ^^^ lo64 (clmul quotient newR))
    else some t

/-- `mod_inverse` (field.cpp:112-130). The loops get 66 and 65 iterations; that this always suffices is part of C03. -/
def modInverse (z : Nat) (a modulus : W64) : Option W64 := modInverseLoop z 66 0 1 modulus a

/-- Which reduction function the static `GF2E::reduce` (field.h:25) points to; `unset` is the initial `nullptr` (field.cpp:137). -/
inductive Reducer where
  | unset | r16 | r32 | r40 | r48
  deriving DecidableEq, Repr

/-- A call through `GF2E::reduce`. Calling the unset `std::function` would throw `std::bad_function_call`; the model returns 0, which the API cannot
observe because sign and verify call `init_extension_field` first and the other API functions do not multiply. -/
def Reducer.apply : Reducer → W128 → W64
  | .unset, _ => 0
  | .r16, x => reduce16 x
  | .r32, x => reduce32 x
  | .r40, x => reduce40 x
  | .r48, x => reduce48 x

/-- The mutable globals of field.cpp: `GF2E::reduce`, `GF2E::byte_size`, `GF2E::modulus` (field.cpp:137-140) and `lifting_lut` (field.cpp:14). -/
structure FieldState where
  reducer : Reducer
  byteSize : Nat
  modulus : W64
  lut : List W64
  deriving DecidableEq

/-- Values of the globals at program start (field.cpp:14, 137-140). -/
def FieldState.initial : FieldState := ⟨.unset, 0, 0, List.replicate 256 0⟩

/-- `GF2E::operator*` (field.cpp:156-162). -/
def FieldState.mul (F : FieldState) (a b : W64) : W64 := F.reducer.apply (clmul a b)

/-- `GF2E::operator+`, `+=`, `-`, `-=` (field.cpp:142-155). -/
def gfAdd (a b : W64) : W64 := a ^^^ b

/-- One iteration of the `bit` loop of `init_lifting_lut` (field.cpp:21-28). The table is filled from the front, so
`lifting_lut[start + idx] = lifting_lut[idx] + pow` for `idx < start` appends to the first `start` entries. -/
def liftStep (r : Reducer) (gen : W64) (st : List W64 × W64) : List W64 × W64 :=
  (st.1 ++ st.1.map (fun v => gfAdd v st.2), r.apply (clmul st.2 gen))

/-- `init_lifting_lut` (field.cpp:16-29). -/
def initLiftingLut (r : Reducer) (gen : W64) : List W64 :=
  ((List.range 7).foldl (fun st _ => liftStep r gen st) ([0, 1], gen)).1

/-- `gen.set_coeff` calls on a fresh `GF2E` (field.h:38). -/
def ofCoeffs (cs : List Nat) : W64 := cs.foldl (fun d i => d ||| (1#64 <<< i)) 0

/-- `GF2E::init_extension_field` (field.cpp:188-312) as the new value of the globals. -/
def initExtensionField (lambda : Nat) : M FieldState :=
  match lambda with
  | 2 => .ok ⟨.r16, 2, ofCoeffs [16, 5, 3, 1, 0], initLiftingLut .r16 (ofCoeffs [14, 8, 7, 6, 3, 2, 0])⟩
  | 4 => .ok ⟨.r32, 4, ofCoeffs [32, 7, 3, 2, 0],
      initLiftingLut .r32 (ofCoeffs [30, 23, 21, 18, 14, 13, 11, 9, 7, 6, 5, 4, 3, 1])⟩
  | 5 => .ok ⟨.r40, 5, ofCoeffs [40, 5, 4, 3, 0],
      initLiftingLut .r40 (ofCoeffs [31, 30, 27, 25, 22, 21, 20, 18, 15, 9, 6, 4, 2])⟩
  | 6 => .ok ⟨.r48, 6, ofCoeffs [48, 5, 3, 2, 0],
      initLiftingLut .r48 (ofCoeffs [45, 43, 40, 37, 36, 35, 34, 33, 31, 30, 29, 28, 24, 21, 20, 19, 16, 14, 13, 11, 10, 7, 3, 2])⟩
  | _ => .error .thrown

/-- `lift_uint8_t` (field.cpp:314). -/
def FieldState.lift (F : FieldState) (b : Byte) : W64 := F.lut.getD b.toNat 0

/-- `GF2E::inverse` (field.cpp:170). `z` is the value `__builtin_clzl(0)` returns. The `none` outcome (loop not finished) is mapped to 0; it does not
occur (C03). -/
def FieldState.inverseZ (F : FieldState) (z : Nat) (a : W64) : W64 := (modInverse z a F.modulus).getD 0

/-- `GF2E::inverse` with the value 64 for `__builtin_clzl(0)`, which is what `lzcnt` returns. C03 shows that the choice does not matter. -/
def FieldState.inverse (F : FieldState) (a : W64) : W64 := F.inverseZ 64 a

/-- `GF2E::to_bytes` (field.cpp:172-180): the first `byte_size` bytes of the little endian word. (`byte_size` is at most 8.) -/
def FieldState.toBytes (F : FieldState) (a : W64) : Bytes :=
  (List.range F.byteSize).map (fun i => (a >>> (8 * i)).setWidth 8)

/-- Little endian word of a byte string; bytes beyond the eighth would be outside the word. -/
def leWord (bs : Bytes) : W64 := bs.foldr (fun b acc => (acc <<< 8) ||| b.setWidth 64) 0

/-- `GF2E::from_bytes` (field.cpp:182-186): reads `byte_size` bytes. Callers guard that they are there. -/
def FieldState.fromBytes (F : FieldState) (bs : Bytes) : W64 := leWord (bs.take F.byteSize)

/-- `get_first_n_field_elements` (field.cpp:316-326). -/
def FieldState.firstN (F : FieldState) (n : Nat) : List W64 :=
  ((List.range n).foldl (fun (st : List W64 × W64) _ => (st.1 ++ [st.2], F.mul st.2 2)) ([], 2)).1

/-- `operator+` on vectors (field.cpp:403-424): throws on different sizes. -/
def vecAdd (a b : List W64) : M (List W64) :=
  if a.length ≠ b.length then .error .thrown else .ok (List.zipWith gfAdd a b)

/-- `operator*(vector, GF2E)` (field.cpp:444-456). -/
def FieldState.vecScale (F : FieldState) (a : List W64) (s : W64) : List W64 := a.map (fun v => F.mul v s)

/-- `dot_product` (field.cpp:427-442): sum of unreduced products, one reduction; throws on different sizes. -/
def FieldState.dot (F : FieldState) (a b : List W64) : M W64 :=
  if a.length ≠ b.length then .error .thrown
  else .ok (F.reducer.apply ((List.zipWith clmul a b).foldl (· ^^^ ·) 0))

/-- `operator*` on polynomials (field.cpp:459-468). Two empty operands ask for a vector of size `SIZE_MAX`, which throws `std::length_error`. -/
def FieldState.polyMul (F : FieldState) (a b : List W64) : M (List W64) :=
  if a.length + b.length = 0 then .error .thrown
  else .ok ((List.range a.length).foldl (fun res i =>
    (List.range b.length).foldl (fun res j =>
      res.set (i + j) (gfAdd (res.getD (i + j) 0) (F.mul (a.getD i 0) (b.getD j 0)))) res)
    (List.replicate (a.length + b.length - 1) 0))

/-- Body of the `k` loop of `build_from_roots` (field.cpp:377-384). The inner loop counts `i` down from `k-1` to 1. -/
def FieldState.rootsStep (F : FieldState) (poly : List W64) (k : Nat) : List W64 :=
  let tmp := poly.getD k 0
  let poly := poly.set k (gfAdd tmp (poly.getD (k - 1) 0))
  let poly := (List.range (k - 1)).foldl (fun poly d =>
    let i := k - 1 - d
    poly.set i (gfAdd (F.mul (poly.getD i 0) tmp) (poly.getD (i - 1) 0))) poly
  poly.set 0 (F.mul (poly.getD 0 0) tmp)

/-- `build_from_roots` (field.cpp:370-387). -/
def FieldState.buildFromRoots (F : FieldState) (roots : List W64) : List W64 :=
  let len := roots.length
  let poly := (List.range (len - 1)).foldl (fun poly k => F.rootsStep poly (k + 1)) (roots ++ [0])
  poly.set len 1

/-- `eval` (field.cpp:389-399): Horner from the highest coefficient. -/
def FieldState.eval (F : FieldState) (poly : List W64) (x : W64) : W64 :=
  poly.foldr (fun c acc => gfAdd (F.mul acc x) c) 0

/-- Body of the `k` loop of `precompute_lagrange_polynomials` (field.cpp:336-350). -/
def FieldState.lagrangePoly (F : FieldState) (xs : List W64) (k : Nat) : List W64 :=
  let others := (List.range xs.length).filter (fun j => k ≠ j)
  let denominator := others.foldl (fun d j => F.mul d (gfAdd (xs.getD k 0) (xs.getD j 0))) 1
  let exceptK := others.map (fun j => xs.getD j 0)
  F.vecScale (F.buildFromRoots exceptK) (F.inverse denominator)

/-- `precompute_lagrange_polynomials` (field.cpp:328-353). -/
def FieldState.precomputeLagrange (F : FieldState) (xs : List W64) : List (List W64) :=
  (List.range xs.length).map (F.lagrangePoly xs)

/-- `interpolate_with_precomputation` (field.cpp:355-368). The `+=` in the loop throws on different sizes. -/
def FieldState.interpolate (F : FieldState) (pre : List (List W64)) (ys : List W64) : M (List W64) :=
  if pre.length ≠ ys.length ∨ ys = [] then .error .thrown
  else (List.range ys.length).foldlM (fun res k => vecAdd res (F.vecScale (pre.getD k []) (ys.getD k 0)))
    (List.replicate (pre.getD 0 []).length 0)

end Banquet
