import Verif.Model.Api

/-! The benchmark tools (tools/bench.cpp, tools/bench_free.cpp, tools/bench_utils.cpp): command lines, parameters, and the calls they time. Not modelled: clocks (bench_timing.cpp), what is printed, `_MSC_VER`. -/

namespace Banquet.Bench

/-- `isspace` in the locale "C", as in strtol: space, \t, \n, \v, \f, \r. -/
def isSpace (b : Byte) : Bool := b == 32 || (decide (9 ≤ b.toNat) && decide (b.toNat ≤ 13))

/-- `0` to `9`. -/
def isDigit (b : Byte) : Bool := decide (48 ≤ b.toNat) && decide (b.toNat ≤ 57)

/-- The number a string of digits stands for. -/
def value (ds : Bytes) : Nat := ds.foldl (fun n d => 10 * n + (d.toNat - 48)) 0

/-- What strtol skips at the beginning: the rest after white space and a sign, and whether the sign is `-`. -/
def afterSign (s : Bytes) : Bool × Bytes :=
  match s.dropWhile isSpace with
  | 45 :: r => (true, r)
  | 43 :: r => (false, r)
  | r => (false, r)

/-- `strtol(arg, NULL, 10)` (bench_utils.cpp:41) of a C string without its final 0, with a `long` of 64 bits: the value, and whether errno is ERANGE. Without digits the value is 0 and errno stays 0 (glibc). -/
def strtol (arg : Bytes) : Int × Bool :=
  let r := afterSign arg
  let v := value (r.2.takeWhile isDigit)
  if r.1 then if v > 2 ^ 63 then (-2 ^ 63, true) else (-v, false)
  else if v > 2 ^ 63 - 1 then (2 ^ 63 - 1, true) else (v, false)

/-- `parse_long` (bench_utils.cpp:39-50). -/
def parseLong (arg : Bytes) : Option Int :=
  let r := strtol arg
  if (r.2 && (r.1 == 2 ^ 63 - 1 || r.1 == -2 ^ 63)) || (r.2 && r.1 == 0) then none else some r.1

/-- `parse_uint32_t` (bench_utils.cpp:52-64). -/
def parseU32 (arg : Bytes) : Option Nat :=
  match parseLong arg with
  | none => none
  | some v => if v < 0 ∨ v.toNat > 2 ^ 32 - 1 then none else some v.toNat

/-- What `getopt_long` returns: the option `i` with its argument, or anything else (`?` and `l`), upon which the caller gives up. -/
inductive Opt where
  | iter (arg : Bytes)
  | bad
  deriving DecidableEq

/-- `getopt_long(argc, argv, "i:l:", long_options, …)` with `long_options = {{"iter", required_argument, NULL, 'i'}, …}`, called until it returns -1 (bench_utils.cpp:91-113, 168-189), as glibc does it without
POSIXLY_CORRECT. The arguments are `argv[1]`, …, each without its final 0. Results: the options, and the other arguments, which are moved to the end of `argv`, where `optind` points to the first of them. `pending` is true
if an option waits for its argument. After a bad option the rest does not matter. -/
def getopt (pending : Bool) : List Bytes → List Opt × List Bytes
  | [] => (if pending then [.bad] else [], [])
  | a :: as =>
    if pending then (.iter a :: (getopt false as).1, (getopt false as).2)
    else match a with
      | [45, 45] => ([], as)
      | 45 :: 45 :: long =>
        if (long.takeWhile (· != 61)).isPrefixOf [105, 116, 101, 114] then
          match long.dropWhile (· != 61) with
          | [] => getopt true as
          | _ :: v => (.iter v :: (getopt false as).1, (getopt false as).2)
        else ([.bad], [])
      | [45, 105] => getopt true as
      | 45 :: 105 :: v => (.iter v :: (getopt false as).1, (getopt false as).2)
      | 45 :: _ :: _ => ([.bad], [])
      | _ => ((getopt false as).1, a :: (getopt false as).2)

/-- The loop over the options (bench_utils.cpp:98-113, 174-189): `iter` afterwards, or nothing if the function returns false. -/
def readOptions : Nat → List Opt → Option Nat
  | n, [] => some n
  | _, .iter v :: os => (parseU32 v).bind fun m => readOptions m os
  | _, .bad :: _ => none

/-- `parse_args` (bench_utils.cpp:82-152) of `argv[1]`, …: parameter set and iterations, or nothing for false. `argv[0]` is there. -/
def parseArgs (args : List Bytes) : Option (Nat × Nat) :=
  if args.length + 1 ≤ 1 then none
  else
    let r := getopt false args
    match readOptions 10 r.1 with
    | none => none
    | some n =>
      match r.2 with
      | [s] =>
        match parseU32 s with
        | none => none
        | some p => if p ≤ 0 ∨ p ≥ 24 then none else some (p, n)
      | _ => none

/-- `bench_options_free_t` (bench_utils.h:42-50). -/
structure FreeOptions where
  iter : Nat
  kappa : Nat
  m1 : Nat
  m2 : Nat
  tau : Nat
  n : Nat
  lambda : Nat
  deriving DecidableEq

/-- `parse_uint32_t(&p, argv[optind++])` (bench_utils.cpp:191-226) with `k` arguments of `rest` read so far. `argv[argc]` is a null pointer, which strtol must not be given. -/
def nextNumber (rest : List Bytes) (k : Nat) : M (Option Nat) :=
  match rest[k]? with
  | none => .error .ub
  | some s => .ok (parseU32 s)

/-- `parse_args_free` (bench_utils.cpp:154-228): the options, or nothing for false. -/
def parseArgsFree (args : List Bytes) : M (Option FreeOptions) :=
  if args.length + 1 ≤ 6 then .ok none
  else
    let r := getopt false args
    match readOptions 10 r.1 with
    | none => .ok none
    | some iter => do
      let some kappa ← nextNumber r.2 0 | .ok none
      let some n ← nextNumber r.2 1 | .ok none
      let some tau ← nextNumber r.2 2 | .ok none
      let some m1 ← nextNumber r.2 3 | .ok none
      let some m2 ← nextNumber r.2 4 | .ok none
      let some lambda ← nextNumber r.2 5 | .ok none
      .ok (some ⟨iter, kappa, m1, m2, tau, n, lambda⟩)

/-- The instance of bench_free.cpp:69-97, or nothing if the benchmark returns early. For another `kappa` the switch only prints a message; `aes_params` stays uninitialised, and the next statement reads it. The products are of
type `uint32_t`. `params` stays uninitialised too; nothing reads it. -/
def freeInstance (o : FreeOptions) : M (Option Instance) := do
  let aes ← match o.kappa with
    | 16 => .ok aes128Params
    | 24 => .ok aes192Params
    | 32 => .ok aes256Params
    | _ => .error .ub
  if o.m1 * o.m2 % 2 ^ 32 ≠ aes.numSboxes then .ok none
  else .ok (some ⟨aes, 2 * o.kappa % 2 ^ 32, o.kappa, o.tau, o.n, o.m1, o.m2, o.lambda, 0⟩)

/-- The message of the benchmarks (bench.cpp:58-60, bench_free.cpp:58-60): 1, …, 32. -/
def message : Bytes := (List.range 32).map fun i => BitVec.ofNat 8 (i + 1)

/-- One iteration (bench.cpp:76-108, bench_free.cpp:100-132) with globals `G` and the bytes the random generator gives to this key generation: size of the signature, verdict, and globals afterwards. -/
def iteration (X : Xof) (fuel : Nat) (I : Instance) (draws : Nat → Bytes × Bytes) (G : FieldState) : M (Nat × Bool × FieldState) := do
  let (sk, pk) ← keygen I draws fuel 0
  (initGlobals G I.lambda).1
  let G1 := (initGlobals G I.lambda).2
  let sig ← signWith X fuel G1 I sk pk message
  let bytes ← serialize G1 I sig
  let sig' ← deserialize X fuel G1 I bytes
  (initGlobals G1 I.lambda).1
  let G2 := (initGlobals G1 I.lambda).2
  let ok ← verifyWith X (List.replicate I.seedSize 0) fuel G2 I pk sig' message
  .ok (bytes.length, ok, G2)

/-- All iterations (bench.cpp:75-109, bench_free.cpp:99-133), `i` of them done: sizes and verdicts. -/
def iterations (X : Xof) (fuel : Nat) (I : Instance) (draws : Nat → Nat → Bytes × Bytes) : Nat → Nat → FieldState → M (List (Nat × Bool))
  | 0, _, _ => .ok []
  | n + 1, i, G => do
    let r ← iteration X fuel I (draws i) G
    let rs ← iterations X fuel I draws n (i + 1) r.2.2
    .ok ((r.1, r.2.1) :: rs)

/-- `main` and `bench_sign_and_verify` (bench.cpp:57-124): nothing if it prints a usage message. -/
def bench (X : Xof) (fuel : Nat) (draws : Nat → Nat → Bytes × Bytes) (args : List Bytes) : M (Option (List (Nat × Bool))) :=
  match parseArgs args with
  | none => .ok none
  | some (p, n) => do
    let I ← instanceGet p
    let rs ← iterations X fuel I draws n 0 FieldState.initial
    .ok (some rs)

/-- `main` and `bench_sign_and_verify_free` (bench_free.cpp:57-148). -/
def benchFree (X : Xof) (fuel : Nat) (draws : Nat → Nat → Bytes × Bytes) (args : List Bytes) : M (Option (List (Nat × Bool))) := do
  let some o ← parseArgsFree args | .ok none
  let some I ← freeInstance o | .ok none
  let rs ← iterations X fuel I draws o.iter 0 FieldState.initial
  .ok (some rs)

end Banquet.Bench
