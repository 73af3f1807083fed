import Verif.Model.Code
import Verif.Model.Keccak64
import Verif.Model.KeccakX4
import Verif.Model.KeccakAvx2

/-! Executable driver, used to compare the model with the known answer test of the repository (tests/banquet_test.cpp). Not part of any proof. -/

namespace Banquet.Kat

/-- The model's sponge over the portable code, with cached output. -/
def katXof : Xof := fun k msg =>
  let out (n : Nat) : Array Byte := match (do hashSqueeze Opt64.snp (← hashFinal Opt64.snp (← hashUpdate Opt64.snp (hashInit Opt64.snp k) msg)) n : M _) with
    | .ok r => r.2.toArray
    | .error _ => #[]
  let c1 : Thunk (Array Byte) := Thunk.mk fun _ => out 400
  let c2 : Thunk (Array Byte) := Thunk.mk fun _ => out 8192
  ⟨fun i => if i < 400 then c1.get.getD i 0 else c2.get.getD i 0⟩

def hexDigit (n : Nat) : Char := "0123456789abcdef".toList.getD n '?'
def hex (bs : Bytes) : String := String.ofList (bs.flatMap fun b => [hexDigit (b.toNat / 16), hexDigit (b.toNat % 16)])

def ofNats (l : List Nat) : Bytes := l.map (BitVec.ofNat 8)

/-- Sign with instance `n`, print the serialized signature, verify, deserialize and compare. -/
def run (n : Int) (sk pt msg : Bytes) : IO Unit := do
  match instanceGet n with
  | .error _ => IO.println "bad instance"
  | .ok I =>
    match aesPlain I.aes.keySize sk pt with
    | none => IO.println "bad key"
    | some ct =>
      IO.println s!"ct {hex ct}"
      let pk := pt ++ ct
      match sign katXof 100 I sk pk msg, initExtensionField I.lambda with
      | .ok sig, .ok F =>
        match serialize F I sig with
        | .ok bs =>
          IO.println s!"sig {hex bs}"
          match deserialize katXof 100 F I bs with
          | .ok sig' =>
            IO.println s!"roundtrip {decide (sig = sig')}"
          | .error e => IO.println s!"deserialize error {repr e}"
          match verify katXof 100 I pk sig msg with
          | .ok b => IO.println s!"verify {b}"
          | .error e => IO.println s!"verify error {repr e}"
        | .error e => IO.println s!"serialize error {repr e}"
      | .error e, _ => IO.println s!"sign error {repr e}"
      | _, _ => IO.println "field error"

/-- The same with the hash calls of the code over the given implementation of the functions on the Keccak state. -/
def runCode (name : String) (H : Code.Hash) (n : Int) (sk pt msg : Bytes) : IO Unit := do
  let J : Code.Junk := ⟨fun _ _ => List.replicate 64 0xAA, fun _ => 0xAAAA⟩
  match instanceGet n with
  | .error _ => IO.println "bad instance"
  | .ok I =>
    match aesPlain I.aes.keySize sk pt with
    | none => IO.println "bad key"
    | some ct =>
      let pk := pt ++ ct
      match Code.sign H J 100 I sk pk msg, initExtensionField I.lambda with
      | .ok sig, .ok F =>
        match serialize F I sig with
        | .ok bs =>
          IO.println s!"{name} sig {hex bs}"
          match Code.verify H J 100 I pk sig msg with
          | .ok b => IO.println s!"{name} verify {b}"
          | .error e => IO.println s!"{name} verify error {repr e}"
        | .error e => IO.println s!"{name} serialize error {repr e}"
      | .error e, _ => IO.println s!"{name} sign error {repr e}"
      | _, _ => IO.println "field error"

/-- The known answer test `KAT` of tests/banquet_test.cpp:1133. -/
def main : IO Unit := do
  IO.println s!"shake128 {hex ((katXof .shake128 []).squeeze 0 32)}"
  let sk := List.replicate 16 0xff
  let pt := ofNats ([1, 1, 1, 1] ++ List.replicate 12 0)
  let msg := ofNats (("TestMessage".toList).map Char.toNat)
  run 1 sk pt msg
  runCode "portable" ⟨Opt64.snp, Opt64.plSnp⟩ 1 sk pt msg
  runCode "avx2" ⟨Avx2.snp, X4.plSnp⟩ 1 sk pt msg

end Banquet.Kat
