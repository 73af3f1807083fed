import Verif.Model.Aes
import Verif.Model.Basic

/-! Model of the macro `restore_t_shares_KS` (aes.cpp:330-352), which nothing uses. -/

namespace Banquet

/-- Five lines of the macro, for byte `k` of `m` (aes.cpp:333-337, 338-342, 343-347, 348-352): `s` and `t` are the spans of the party, `j` is `sbox_index`. The spans check their indices and terminate the program. -/
def restoreKsStep (t : Bytes) (st : Blk × Bytes × Nat) (k : Fin 16) : M (Blk × Bytes × Nat) := do
  require .abort (decide (st.2.2 < st.2.1.length))
  require .abort (decide (st.2.2 < t.length))
  .ok (st.1.set k (aesInv (t.getD st.2.2 0)), st.2.1.set st.2.2 st.1[k], st.2.2 + 1)

/-- `restore_t_shares_KS(m, s_shares, t_shares, party, sbox_index)` (aes.cpp:330-352): new `m`, `s_shares[party]` and `sbox_index`. -/
def restoreKs (t : Bytes) (m : Blk) (s : Bytes) (j : Nat) : M (Blk × Bytes × Nat) := [13, 14, 15, 12].foldlM (restoreKsStep t) (m, s, j)

end Banquet
