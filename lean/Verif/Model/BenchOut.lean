import Verif.Model.Basic
import Mathlib.Data.Rat.Defs

/-! Model of what the benchmark tools measure and print (tools/bench.cpp, bench_free.cpp, bench_timing.cpp) and of the script that evaluates it (tools/parse_bench.py). Text is a list of characters. -/

namespace Banquet.Tools

/-! ## Clocks -/

/-- The clocks of bench_timing.cpp: the function pointers stored in the context. -/
inductive Clock
  | armv8
  | perf (fd : Int)
  | clock
deriving DecidableEq

/-- `perf_event_open` and `perf_init` (bench_timing.cpp:174-209): `res` is what the system call returns. -/
def perfInit (res : Int) : Option Clock :=
  let fd : Int := if res > 2147483647 then -1 else res
  if fd = -1 then none else some (.perf fd)

/-- `timing_init` (bench_timing.cpp:225-237). `armv8` says whether `armv8_init` succeeds (`none` on other processors), `linux` whether the code for Linux is compiled, with the result of the system call. -/
def timingInit (armv8 : Option Bool) (linux : Option Int) : Bool × Clock :=
  match armv8 with
  | some true => (true, .armv8)
  | _ =>
    match linux.bind perfInit with
    | some c => (true, c)
    | none => (true, .clock)

/-- `perf_read` (bench_timing.cpp:165-172): `res` is what `read` returns, `v` the number it stores. -/
def perfRead (res : Int) (v : W64) : W64 := if res ≠ 8 then BitVec.allOnes 64 else v

/-- `clock_read` (bench_timing.cpp:214-217), with `clock()` and `CLOCKS_PER_SEC`. -/
def clockRead (t perSec : Nat) : W64 := BitVec.ofNat 64 (t * (1000000 / perSec))

/-! ## Measuring and printing -/

/-- `timing_and_size_t` (bench.cpp:43-45, bench_free.cpp:43-45). -/
structure Timing where
  keygen : W64
  sign : W64
  serialize : W64
  deserialize : W64
  verify : W64
  size : W64
deriving DecidableEq

/-- What iteration `i` stores (bench.cpp:78-106, bench_free.cpp:102-130): the clock is read ten times, `clock k` is the result of the reading with number `k`. -/
def measure (clock : Nat → W64) (size : Nat) (i : Nat) : Timing :=
  let c := fun j => clock (10 * i + j)
  ⟨c 1 - c 0, c 3 - c 2, c 5 - c 4, c 7 - c 6, c 9 - c 8, BitVec.ofNat 64 size⟩

/-- `printf` of `%PRIu64`. -/
def fmtU (w : W64) : List Char := Nat.toDigits 10 w.toNat

/-- `printf` of `%d`, given a 32-bit unsigned argument as the tools do. -/
def fmtD (w : BitVec 32) : List Char := if w.toInt < 0 then '-' :: Nat.toDigits 10 w.toInt.natAbs else Nat.toDigits 10 w.toInt.natAbs

/-- The printed values of an instance: N, tau, lambda, m1, m2 and the key size. -/
structure Shown where
  n : BitVec 32
  tau : BitVec 32
  lambda : BitVec 32
  m1 : BitVec 32
  m2 : BitVec 32
  keySize : BitVec 32

/-- The instance line without `Instance: ` and without the line break (bench.cpp:70-73, bench_free.cpp:90-93). -/
def instanceText (s : Shown) : List Char :=
  "N=".toList ++ fmtD s.n ++ ", tau=".toList ++ fmtD s.tau ++ ", lambda=".toList ++ fmtD s.lambda ++ ", m1=".toList ++ fmtD s.m1 ++ ", m2=".toList ++ fmtD s.m2 ++
    ", AES-Keylen=Seclvl=".toList ++ fmtD s.keySize

/-- First line of `print_timings` (bench.cpp:48). -/
def header : List Char := "keygen,sign,verify,size,serialize,deserialize".toList

/-- One line of `print_timings` (bench.cpp:50-53), without the line break. -/
def fmtRow (t : Timing) : List Char :=
  fmtU t.keygen ++ ',' :: (fmtU t.sign ++ ',' :: (fmtU t.verify ++ ',' :: (fmtU t.size ++ ',' :: (fmtU t.serialize ++ ',' :: fmtU t.deserialize))))

/-- `print_timings` (bench.cpp:47-55, bench_free.cpp:47-55). -/
def printTimings (ts : List Timing) : List Char := header ++ '\n' :: ts.flatMap fun t => fmtRow t ++ ['\n']

/-- Standard output of one run of a tool that comes to its end (bench.cpp:70-112, bench_free.cpp:90-136). -/
def printRun (s : Shown) (ts : List Timing) : List Char := "Instance: ".toList ++ (instanceText s ++ '\n' :: printTimings ts)

/-- Standard output of `bench_free` when `m1 * m2` is wrong (bench_free.cpp:90-97). -/
def printInvalid (s : Shown) : List Char := "Instance: ".toList ++ (instanceText s ++ '\n' :: ("invalid m1 and m2 for chosen seclvl".toList ++ ['\n']))

/-! ## parse_bench.py -/

/-- Python's `str.split(sep)` for a separator that is not empty: leftmost, without overlaps. `skip` characters of a separator are still to be passed over, `cur` is the piece read so far. -/
def splitGo (sep : List Char) : Nat → List Char → List Char → List (List Char)
  | _, cur, [] => [cur]
  | skip + 1, cur, _ :: cs => splitGo sep skip cur cs
  | 0, cur, c :: cs => if sep.isPrefixOf (c :: cs) then cur :: splitGo sep (sep.length - 1) [] cs else splitGo sep 0 (cur ++ [c]) cs

/-- `s.split(sep)`. -/
def split (sep s : List Char) : List (List Char) := splitGo sep 0 [] s

/-- The characters at which Python's `str.splitlines` breaks. Reading in text mode has turned a carriage return with a line feed into a line feed, so that a break is one character. -/
def isBreak (c : Char) : Bool := [0x0A, 0x0B, 0x0C, 0x0D, 0x1C, 0x1D, 0x1E, 0x85, 0x2028, 0x2029].contains c.toNat

/-- `s.splitlines()`: no empty line after the last break. -/
def linesGo : List Char → List Char → List (List Char)
  | cur, [] => if cur.isEmpty then [] else [cur]
  | cur, c :: cs => if isBreak c then cur :: linesGo [] cs else linesGo (cur ++ [c]) cs

/-- Python's `str.isspace` for one character. -/
def isSpace (c : Char) : Bool :=
  let n := c.toNat
  (9 ≤ n && n ≤ 13) || (0x1C ≤ n && n ≤ 0x20) || (0x2000 ≤ n && n ≤ 0x200A) || [0x85, 0xA0, 0x1680, 0x2028, 0x2029, 0x202F, 0x205F, 0x3000].contains n

/-- `s.strip()`. -/
def strip (s : List Char) : List Char := ((s.dropWhile isSpace).reverse.dropWhile isSpace).reverse

/-- Digits with single underscores between them; `ok` says whether the text may end here. -/
def digitsGo : Bool → Nat → List Char → Option Nat
  | ok, acc, [] => if ok then some acc else none
  | ok, acc, c :: cs =>
    if c.isDigit then digitsGo true (10 * acc + (c.toNat - 48)) cs
    else if c = '_' && ok then digitsGo false acc cs
    else none

/-- Python's `int(s)`; `none` is `ValueError`. Digits outside ASCII, which Python accepts as well, are left out. -/
def pyInt (s : List Char) : Option Int :=
  match strip s with
  | '-' :: ds => (digitsGo false 0 ds).map fun n => -(n : Int)
  | '+' :: ds => (digitsGo false 0 ds).map fun n => (n : Int)
  | ds => (digitsGo false 0 ds).map fun n => (n : Int)

/-- `int(vals[k])` (parse_bench.py:30-35): IndexError or ValueError. -/
def column (vals : List (List Char)) (k : Nat) : M Int :=
  match vals[k]? with
  | none => .error .thrown
  | some s => match pyInt s with
    | none => .error .thrown
    | some v => .ok v

/-- The sums of parse_bench.py:23-24, in the order of the line: keygen, sign, ver, size, ser, deser; then `count`. -/
structure Sums where
  keygen : Int
  sign : Int
  ver : Int
  size : Int
  ser : Int
  deser : Int
  count : Nat

/-- Body of the loop over the lines (parse_bench.py:26-36). -/
def addLine (s : Sums) (line : List Char) : M Sums :=
  if (strip line).length = 0 then .ok s
  else do
    let vals := split [','] (strip line)
    let a ← column vals 0
    let b ← column vals 1
    let c ← column vals 2
    let d ← column vals 3
    let e ← column vals 4
    let f ← column vals 5
    .ok ⟨s.keygen + a, s.sign + b, s.ver + c, s.size + d, s.ser + e, s.deser + f, s.count + 1⟩

/-- What is printed for one run (parse_bench.py:17, 20, 38-45). The averages are floating-point numbers rounded to two or three places in the script, and exact rational numbers here. -/
structure Report where
  instanceLine : List Char
  headerLine : List Char
  keygen : ℚ
  sign : ℚ
  ver : ℚ
  size : ℚ
  ser : ℚ
  deser : ℚ
deriving DecidableEq

/-- Body of the loop over the runs (parse_bench.py:14-46): IndexError without two lines, ZeroDivisionError without a row. -/
def summarise (test : List Char) : M Report :=
  match linesGo [] test with
  | l0 :: l1 :: lines => do
    let s ← lines.foldlM addLine ⟨0, 0, 0, 0, 0, 0, 0⟩
    if s.count = 0 then .error .thrown
    else .ok ⟨l0, l1, (s.keygen : ℚ) / 1000 / s.count, (s.sign : ℚ) / 1000 / s.count, (s.ver : ℚ) / 1000 / s.count, (s.size : ℚ) / 1024 / s.count, (s.ser : ℚ) / 1000 / s.count, (s.deser : ℚ) / 1000 / s.count⟩
  | _ => .error .thrown

/-- The script (parse_bench.py:7-46) on the text of the file. An exception ends it; what was printed before is left out here. -/
def parseBench (content : List Char) : M (List Report) :=
  let testruns := split "Instance: ".toList content
  let testruns := if testruns.length > 1 then testruns.drop 1 else testruns
  testruns.mapM summarise

end Banquet.Tools
