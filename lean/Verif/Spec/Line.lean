import Verif.Model.Basic

/-! Command lines and numerals, without reference to the model. Characters are bytes of ASCII. -/

namespace Banquet.Spec.Line

/-- The digit of a value below 10. -/
def digit (d : Fin 10) : Byte := BitVec.ofNat 8 (48 + d.val)

/-- The number written with these digits, the first one most significant. -/
def number : List (Fin 10) → Nat
  | [] => 0
  | d :: ds => d.val * 10 ^ ds.length + number ds

/-- `s` is a decimal numeral for `n`: digits and nothing else, at least one. -/
def Numeral (s : Bytes) (n : Nat) : Prop := ∃ ds : List (Fin 10), ds ≠ [] ∧ s = ds.map digit ∧ n = number ds

/-- White space: tab, line feed, vertical tab, form feed, carriage return, space. -/
def space : List Byte := [9, 10, 11, 12, 13, 32]

/-- `s` begins with what `strtol` takes for `n` or `-n`: white space, perhaps a sign, and all digits up to the first character that is none. -/
def Begins (s : Bytes) (negative : Bool) (n : Nat) : Prop :=
  ∃ (sp sign rest : Bytes) (ds : List (Fin 10)), s = sp ++ sign ++ ds.map digit ++ rest ∧ (∀ b ∈ sp, b ∈ space) ∧ (∀ d, rest.head? ≠ some (digit d)) ∧ n = number ds ∧
    (sign = [45] ∧ negative = true ∨ sign = [43] ∧ negative = false ∨
      sign = [] ∧ negative = false ∧ (ds = [] → ∀ b, rest.head? = some b → b ∉ space ∧ b ≠ 45 ∧ b ≠ 43))

/-- `s` begins with a number below 2^32, or with a negated zero. -/
def ReadAs (s : Bytes) (n : Nat) : Prop := n < 2 ^ 32 ∧ (Begins s false n ∨ (Begins s true 0 ∧ n = 0))

/-- A command line with options `-i` and `--iter`: `its` are the arguments of these options, `words` the other arguments. -/
inductive Parsed : List Bytes → List Bytes → List Bytes → Prop
  /-- the empty line -/
  | done : Parsed [] [] []
  /-- `--` ends the options -/
  | stop (rest : List Bytes) : Parsed ([45, 45] :: rest) [] rest
  /-- `-`, the empty word, or a word that does not begin with `-` -/
  | word (a : Bytes) (rest its words : List Bytes) : (∀ t, a = 45 :: t → t = []) → Parsed rest its words → Parsed (a :: rest) its (a :: words)
  /-- `-i v` -/
  | short (v : Bytes) (rest its words : List Bytes) : Parsed rest its words → Parsed ([45, 105] :: v :: rest) (v :: its) words
  /-- `-iv` -/
  | joined (v : Bytes) (rest its words : List Bytes) : v ≠ [] → Parsed rest its words → Parsed ((45 :: 105 :: v) :: rest) (v :: its) words
  /-- `--iter v`, where `iter` may be shortened -/
  | long (name v : Bytes) (rest its words : List Bytes) : name ∈ [[105, 116, 101, 114], [105, 116, 101], [105, 116], [105]] → Parsed rest its words → Parsed ((45 :: 45 :: name) :: v :: rest) (v :: its) words
  /-- `--iter=v`, where `iter` may be shortened, even to nothing -/
  | equals (name v : Bytes) (rest its words : List Bytes) : name ∈ [[105, 116, 101, 114], [105, 116, 101], [105, 116], [105], []] → Parsed rest its words →
      Parsed ((45 :: 45 :: (name ++ 61 :: v)) :: rest) (v :: its) words

end Banquet.Spec.Line
