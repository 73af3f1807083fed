import Verif.Model.Macros
import Verif.Model.Xof

/-! Model of tree.h and tree.cpp: `SeedTree`. -/

namespace Banquet

/-- `SeedTree` (tree.h:12-49). `data` holds one byte string per node instead of one flat vector. -/
structure SeedTree where
  data : List Bytes
  nodeExists : List Bool
  hasValue : List Bool
  seedSize : Nat
  numLeaves : Nat
  numTotal : Nat

/-- `reveal_list_t` (types.h:22). -/
structure RevealList where
  seeds : List Bytes
  missing : Nat
  deriving DecidableEq

/-- `node_exists` (tree.h:25-30). -/
def SeedTree.ex (t : SeedTree) (i : Nat) : Bool := t.nodeExists.getD i false
/-- `node_has_value` (tree.h:31-36). -/
def SeedTree.hv (t : SeedTree) (i : Nat) : Bool := t.hasValue.getD i false
/-- Contents of the block of node `i`. -/
def SeedTree.node (t : SeedTree) (i : Nat) : Bytes := t.data.getD i []

/-- `get_parent` (tree.cpp:63-66) for `node ≠ 0`. -/
def getParent (node : Nat) : Nat := (node + 1) / 2 - 1

/-- `_num_total_nodes` (tree.cpp:72-77, 162-167). `1 << depth` is an `int`: the model is for fewer than 2^30 leaves. -/
def treeTotal (n : Nat) : Nat := (2 ^ (1 + ceilLog2 n) - 1) - (2 ^ ceilLog2 n - n)

/-- `_node_exists` after tree.cpp:79-90 (169-180): leaves, then inner nodes from the last non-leaf index down to 1, then the root. -/
def treeExists (n : Nat) : List Bool :=
  let total := treeTotal n
  let init := (List.range total).map fun i => decide (total - n ≤ i)
  let inner := (List.range (total - n)).foldl (fun (ex : List Bool) d =>
    let i := total - n - d
    if ex.getD (2 * i + 1) false || ex.getD (2 * i + 2) false then ex.set i true else ex) init
  inner.set 0 true

/-- `expand_seed` (tree.cpp:11-27), both halves; `(uint16_t)` truncation by `le16`. When the destination has room for one seed only, the second squeeze does not happen and the
second half is not used. -/
def expandSeed (X : Xof) (seed salt : Bytes) (rep node : Nat) : Bytes × Bytes :=
  let s := X (kindOf (2 * seed.length)) ([1] ++ seed ++ salt ++ le16 rep ++ le16 node)
  (s.squeeze 0 seed.length, s.squeeze seed.length seed.length)

/-- One lane of `expand_seed_x4` (tree.cpp:29-62): all lanes use the size of the first seed. -/
def expandSeedLane (X : Xof) (seedSize : Nat) (seed salt : Bytes) (rep node : Nat) : Bytes × Bytes :=
  let s := X (kindOf (2 * seedSize)) ([1] ++ seed.take seedSize ++ salt ++ le16 rep ++ le16 node)
  (s.squeeze 0 seedSize, s.squeeze seedSize seedSize)

/-- Store the halves of an expansion in the children of node `i` and mark them: the right child only if it exists (tree.cpp:103-113). -/
def SeedTree.putChildren (t : SeedTree) (i : Nat) (ch : Bytes × Bytes) : SeedTree :=
  if t.ex (2 * i + 2) then
    { t with data := (t.data.set (2 * i + 1) ch.1).set (2 * i + 2) ch.2,
             hasValue := (t.hasValue.set (2 * i + 1) true).set (2 * i + 2) true }
  else
    { t with data := t.data.set (2 * i + 1) ch.1, hasValue := t.hasValue.set (2 * i + 1) true }

/-- Which nodes are expanded: the first constructor expands existing nodes (tree.cpp:101), the second (`needValue`) existing nodes with a value (tree.cpp:229). -/
def SeedTree.active (t : SeedTree) (needValue : Bool) (i : Nat) : Bool := t.ex i && (!needValue || t.hv i)

/-- Body of the first and of the last loop of the constructors (tree.cpp:100-114, 142-156, 228-244, 278-292). -/
def SeedTree.expandOne (X : Xof) (salt : Bytes) (rep : Nat) (needValue : Bool) (t : SeedTree) (i : Nat) : M SeedTree :=
  if t.active needValue i then
    if 2 * i + 1 < t.numTotal then .ok (t.putChildren i (expandSeed X (t.node i) salt rep i))
    else .error .ub
  else .ok t

/-- Body of the 4-way loop (tree.cpp:119-140, 249-276). Undefined behaviour:
an expanded node without room for its children; a node that is not expanded at the head of the block in the first constructor (its 64 byte dummy sets the seed size for all
lanes, and the 32 byte dummy of tree.cpp:36 overflows); seeds above 32 bytes with a lane that has no room for two seeds (32 byte dummy of tree.cpp:36). -/
def SeedTree.expandFour (X : Xof) (salt : Bytes) (rep : Nat) (needValue : Bool) (t : SeedTree) (i : Nat) : M SeedTree := do
  require .ub (needValue || t.active needValue i)
  require .ub ((List.range 4).all fun j => !t.active needValue (i + j) || decide (2 * (i + j) + 1 < t.numTotal))
  require .ub (decide (t.seedSize ≤ 32) || (List.range 4).all fun j => t.active needValue (i + j) && t.ex (2 * (i + j) + 2))
  .ok ((List.range 4).foldl (fun u j =>
    if t.active needValue (i + j) then u.putChildren (i + j) (expandSeedLane X t.seedSize (t.node (i + j)) salt rep (i + j))
    else u) t)

/-- The three loops that expand the tree (tree.cpp:98-156, 226-292). -/
def SeedTree.expandAll (X : Xof) (salt : Bytes) (rep : Nat) (needValue : Bool) (t : SeedTree) : M SeedTree := do
  let lastNonLeaf := getParent (t.numTotal - 1)
  let first := min lastNonLeaf 2 + 1
  let t ← (List.range first).foldlM (SeedTree.expandOne X salt rep needValue) t
  let blocks := (lastNonLeaf / 4 * 4 + 3 - first) / 4
  let t ← (List.range blocks).foldlM (fun t b => SeedTree.expandFour X salt rep needValue t (first + 4 * b)) t
  (List.range (lastNonLeaf + 1 - (first + 4 * blocks))).foldlM
    (fun t d => SeedTree.expandOne X salt rep needValue t (first + 4 * blocks + d)) t

/-- First constructor (tree.cpp:69-157). For fewer than two leaves the code indexes outside its vectors. -/
def SeedTree.ofSeed (X : Xof) (seed : Bytes) (n : Nat) (salt : Bytes) (rep : Nat) : M SeedTree := do
  require .ub (decide (2 ≤ n))
  require .ub (decide (seed ≠ []))
  let total := treeTotal n
  let t : SeedTree := ⟨(List.replicate total (List.replicate seed.length 0)).set 0 seed, treeExists n,
    (List.replicate total false).set 0 true, seed.length, n, total⟩
  t.expandAll X salt rep false

/-- `has_sibling` (tree.cpp:184-194, 299-309). -/
def SeedTree.hasSibling (t : SeedTree) (node : Nat) : Bool :=
  t.ex node && !(decide (node % 2 = 1) && !t.ex (node + 1))

/-- `get_sibling` (tree.cpp:196-210, 311-325) for a node with sibling. -/
def getSibling (node : Nat) : Nat := if node % 2 = 1 then node + 1 else node - 1

/-- The nodes visited by `for (node = leaf; node != 0; node = get_parent(node))` (tree.cpp:215-216, 327-328). The fuel `node` suffices because parents are
smaller. -/
def pathUpAux : Nat → Nat → List Nat
  | 0, _ => []
  | fuel + 1, node => if node = 0 then [] else node :: pathUpAux fuel (getParent node)

/-- See `pathUpAux`. -/
def pathUp (node : Nat) : List Nat := pathUpAux node node

/-- Body of the loop storing revealed seeds (tree.cpp:215-227): node `node` is the `idx`-th on the path. A missing entry is an out-of-range access; an entry of another
size than the first is also reported as undefined behaviour (the code would copy it over the neighbouring nodes or leave a zero tail). -/
def SeedTree.putRevealed (seeds : List Bytes) (t : SeedTree) (p : Nat × Nat) : M SeedTree :=
  if t.hasSibling p.1 then
    match seeds[p.2]? with
    | none => .error .ub
    | some s =>
      if s.length ≠ t.seedSize then .error .ub
      else .ok { t with data := t.data.set (getSibling p.1) s, hasValue := t.hasValue.set (getSibling p.1) true }
  else .ok t

/-- Second constructor (tree.cpp:159-293). -/
def SeedTree.ofReveal (X : Xof) (rl : RevealList) (n : Nat) (salt : Bytes) (rep : Nat) : M SeedTree := do
  require .ub (decide (2 ≤ n))
  let total := treeTotal n
  match rl.seeds with
  | [] => .error .ub
  | s0 :: _ =>
    require .ub (decide (s0 ≠ []))
    let t : SeedTree := ⟨List.replicate total (List.replicate s0.length 0), treeExists n,
      List.replicate total false, s0.length, n, total⟩
    let t ← ((pathUp (total - n + rl.missing)).zipIdx).foldlM (SeedTree.putRevealed rl.seeds) t
    t.expandAll X salt rep true

/-- `reveal_all_but` (tree.cpp:295-343): a zero string stands for a sibling that does not exist. -/
def SeedTree.revealAllBut (t : SeedTree) (leaf : Nat) : RevealList :=
  ⟨(pathUp (t.numTotal - t.numLeaves + leaf)).map fun node =>
    if t.hasSibling node then t.node (getSibling node) else List.replicate t.seedSize 0, leaf⟩

/-- `get_leaf` (tree.cpp:345-351). -/
def SeedTree.getLeaf (t : SeedTree) (leaf : Nat) : Option Bytes :=
  let i := t.numTotal - t.numLeaves + leaf
  if t.hv i then some (t.node i) else none

end Banquet
