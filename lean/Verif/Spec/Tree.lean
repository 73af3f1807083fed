import Verif.Model.Xof
import Mathlib.Data.Nat.Log

/-! Specification of the seed tree: nodes are numbered by level (root 0, children of `i` are `2i+1` and `2i+2`), leaves are on level `⌈log2 n⌉`. -/

namespace Banquet.Spec

/-- Seed of node `i`, derived from the root by hashing along the path: a left child is the first half, a right child the second half of
`H(1 ‖ parent seed ‖ salt ‖ rep ‖ parent index)`. -/
def seedAt (X : Xof) (root salt : Bytes) (rep : Nat) : Nat → Bytes
  | 0 => root
  | i + 1 =>
    let s := X (kindOf (2 * root.length)) ([1] ++ seedAt X root salt rep (i / 2) ++ salt ++ le16 rep ++ le16 (i / 2))
    if i % 2 = 0 then s.squeeze 0 root.length else s.squeeze root.length root.length
termination_by i => i
decreasing_by omega

/-- Depth of the tree with `n` leaves. -/
def depth (n : Nat) : Nat := Nat.clog 2 n

/-- Node index of leaf `i`. -/
def leafNode (n i : Nat) : Nat := 2 ^ depth n - 1 + i

/-- The ancestor `k` levels above a node. -/
def ancestor (node : Nat) : Nat → Nat
  | 0 => node
  | k + 1 => (ancestor node k - 1) / 2

/-- The sibling of a node other than the root. -/
def sibling (node : Nat) : Nat := if node % 2 = 1 then node + 1 else node - 1

/-- A node of height `k` (distance to the leaf level) is present when its leftmost descendant leaf is one of the `n` leaves. -/
def Present (n k node : Nat) : Prop := (node + 1) * 2 ^ k ≤ 2 ^ depth n - 1 + n

/-- The seed given for node `j` by a list of seeds for the siblings of the path from leaf `h` to the root (entry `k` is for the sibling `k` levels above the leaf). -/
def revealedAt (n h : Nat) (seeds : List Bytes) (j : Nat) : Option Bytes :=
  ((List.range (depth n)).find? fun k => j == sibling (ancestor (leafNode n h) k)).map fun k => seeds.getD k []

/-- Seed of a node off the path, given the seeds `R` of some nodes: the given one, or else derived from the parent as in `seedAt`. `ss` is the seed length. -/
def revealV (X : Xof) (salt : Bytes) (rep ss : Nat) (R : Nat → Option Bytes) : Nat → Bytes
  | 0 => []
  | i + 1 =>
    match R (i + 1) with
    | some s => s
    | none =>
      let s := X (kindOf (2 * ss)) ([1] ++ revealV X salt rep ss R (i / 2) ++ salt ++ le16 rep ++ le16 (i / 2))
      if i % 2 = 0 then s.squeeze 0 ss else s.squeeze ss ss
termination_by i => i
decreasing_by omega

end Banquet.Spec
