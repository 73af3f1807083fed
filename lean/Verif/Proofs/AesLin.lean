import Verif.Model.Aes
import Mathlib.Data.List.Basic

/-! Linearity of the shared AES evaluation: the run on XORed inputs is the XOR of the runs. -/

namespace Banquet

theorem AesM.bind_run {σ α β : Type} {x : AesM σ α} {f : α → AesM σ β} {s s' : σ} {a : α} (h : x s = (some a, s')) : (x >>= f) s = f a s' := by
  change AesM.bind x f s = _
  unfold AesM.bind
  rw [h]

theorem AesM.bind_none {σ α β : Type} {x : AesM σ α} {f : α → AesM σ β} {s s' : σ} (h : x s = (none, s')) : (x >>= f) s = (none, s') := by
  change AesM.bind x f s = _
  unfold AesM.bind
  rw [h]

theorem AesM.pure_run {σ α : Type} (a : α) (s : σ) : (Pure.pure a : AesM σ α) s = (some a, s) := rfl

theorem getD_xorBytes {a b : Bytes} (h : a.length = b.length) (i : Nat) : (xorBytes a b).getD i 0 = a.getD i 0 ^^^ b.getD i 0 := by
  unfold xorBytes
  rw [List.getD_eq_getElem?_getD, List.getD_eq_getElem?_getD, List.getD_eq_getElem?_getD, List.getElem?_zipWith]
  by_cases hi : i < a.length
  · rw [List.getElem?_eq_getElem hi, List.getElem?_eq_getElem (by omega)]
    rfl
  · rw [List.getElem?_eq_none (by omega), List.getElem?_eq_none (by omega)]
    rfl

theorem length_xorBytes (a b : Bytes) : (xorBytes a b).length = min a.length b.length := by
  unfold xorBytes
  exact List.length_zipWith

theorem xorBytes_append {a b c d : Bytes} (h : a.length = b.length) : xorBytes (a ++ c) (b ++ d) = xorBytes a b ++ xorBytes c d := by
  unfold xorBytes
  exact List.zipWith_append h

namespace Blk

theorem getElem_xor (a b : Blk) (i : Nat) (h : i < 16) : (a.xor b)[i] = a[i] ^^^ b[i] := by
  unfold Blk.xor
  rw [Vector.getElem_ofFn]
  rfl

theorem xor_toList (a b : Blk) : (a.xor b).toList = xorBytes a.toList b.toList := by
  apply List.ext_getElem
  · simp [xorBytes]
  · intro i h1 h2
    simp only [xorBytes, List.getElem_zipWith, Vector.getElem_toList]
    exact getElem_xor a b i (by simpa using h1)

theorem xor_xor_xor (a b c d : Blk) : (a.xor b).xor (c.xor d) = (a.xor c).xor (b.xor d) := by
  apply Vector.ext
  intro i h
  simp only [getElem_xor]
  rw [BitVec.xor_assoc, ← BitVec.xor_assoc b[i], BitVec.xor_comm b[i], BitVec.xor_assoc c[i], ← BitVec.xor_assoc a[i]]

/-- Registers whose bytes are functions of other bytes, additively. -/
theorem ofFn_xor (f g : Fin 16 → Byte) : Blk.xor (Vector.ofFn f) (Vector.ofFn g) = Vector.ofFn fun i => f i ^^^ g i := by
  apply Vector.ext
  intro i h
  rw [getElem_xor, Vector.getElem_ofFn, Vector.getElem_ofFn, Vector.getElem_ofFn]

theorem slli4_xor (a b : Blk) : (a.xor b).slli4 = a.slli4.xor b.slli4 := by
  apply Vector.ext
  intro i h
  simp only [slli4, getElem_xor, Vector.getElem_ofFn]
  split
  · rfl
  · rfl

theorem bcast_xor (a b : Blk) (w : Fin 4) : (a.xor b).bcast w = (a.bcast w).xor (b.bcast w) := by
  apply Vector.ext
  intro i h
  simp only [bcast, getElem_xor, Vector.getElem_ofFn]

theorem shufflePd0_xor (a b c d : Blk) : (a.xor b).shufflePd0 (c.xor d) = (a.shufflePd0 c).xor (b.shufflePd0 d) := by
  apply Vector.ext
  intro i h
  simp only [shufflePd0, getElem_xor, Vector.getElem_ofFn]
  split <;> rfl

theorem shufflePd1_xor (a b c d : Blk) : (a.xor b).shufflePd1 (c.xor d) = (a.shufflePd1 c).xor (b.shufflePd1 d) := by
  apply Vector.ext
  intro i h
  simp only [shufflePd1, getElem_xor, Vector.getElem_ofFn]
  split <;> rfl

theorem rowOrder_xor (a b : Blk) : (a.xor b).rowOrder = a.rowOrder.xor b.rowOrder := by
  apply Vector.ext
  intro i h
  simp only [rowOrder, getElem_xor, Vector.getElem_ofFn]

instance : Std.Associative Blk.xor := ⟨fun a b c => by
  apply Vector.ext
  intro i h
  simp only [getElem_xor, BitVec.xor_assoc]⟩

instance : Std.Commutative Blk.xor := ⟨fun a b => by
  apply Vector.ext
  intro i h
  simp only [getElem_xor]
  exact BitVec.xor_comm _ _⟩

theorem ofWord_xor (w : Fin 4) (a b c : Vector Byte 4) (h : ∀ i (hi : i < 4), c[i] = a[i] ^^^ b[i]) : Blk.ofWord w c = (Blk.ofWord w a).xor (Blk.ofWord w b) := by
  unfold ofWord
  rw [ofFn_xor]
  congr 1
  funext i
  split
  · exact h _ _
  · rfl

theorem rotl8_xor (a b : Byte) {s : Nat} (hs : s ≤ 8) : rotl8 (a ^^^ b) s = rotl8 a s ^^^ rotl8 b s := by
  unfold rotl8
  apply BitVec.eq_of_getLsbD_eq
  intro i hi
  simp only [BitVec.getLsbD_or, BitVec.getLsbD_xor, BitVec.getLsbD_shiftLeft, BitVec.getLsbD_ushiftRight]
  by_cases h : i < s
  · simp [h]
  · rw [BitVec.getLsbD_of_ge a (8 - s + i) (by omega), BitVec.getLsbD_of_ge b (8 - s + i) (by omega)]
    simp [h, hi]

theorem rotl_xor (a b : Blk) {s : Nat} (hs : s ≤ 8) : (a.xor b).rotl s = (a.rotl s).xor (b.rotl s) := by
  apply Vector.ext
  intro i h
  simp only [rotl, getElem_xor, Vector.getElem_ofFn]
  refine Eq.trans (congrArg (rotl8 · s) (getElem_xor a b i h)) (rotl8_xor _ _ hs)

theorem hwXtime_xor (a b : Byte) : hwXtime (a ^^^ b) = hwXtime a ^^^ hwXtime b := by
  revert a b
  have : ∀ a : Byte, ∀ b : Byte, (a <<< 1 ^^^ b <<< 1) = (a ^^^ b) <<< 1 := by
    intro a b
    rw [BitVec.shiftLeft_xor_distrib]
  intro a b
  unfold hwXtime
  rw [← this, BitVec.getLsbD_xor]
  generalize a <<< 1 = x
  generalize b <<< 1 = y
  cases a.getLsbD 7 <;> cases b.getLsbD 7 <;> simp
  · rw [BitVec.xor_assoc]
  · rw [BitVec.xor_assoc, BitVec.xor_assoc, BitVec.xor_comm y]
  · rw [BitVec.xor_assoc x, BitVec.xor_comm y, ← BitVec.xor_assoc (27#8), BitVec.xor_self, BitVec.zero_xor]

theorem xor4 (a b c d e f g h : Byte) : (a ^^^ b) ^^^ (c ^^^ d) ^^^ (e ^^^ f) ^^^ (g ^^^ h) = (a ^^^ c ^^^ e ^^^ g) ^^^ (b ^^^ d ^^^ f ^^^ h) := by ac_rfl

theorem aesimc_xor (a b : Blk) : (a.xor b).aesimc = a.aesimc.xor b.aesimc := by
  unfold aesimc
  rw [ofFn_xor]
  congr 1
  funext i
  simp only [getElem_xor, hwXtime_xor]
  ac_rfl

theorem imc3_xor (a b : Blk) : (a.xor b).imc3 = a.imc3.xor b.imc3 := by
  unfold imc3
  rw [aesimc_xor, aesimc_xor, aesimc_xor]

end Blk

theorem affLin_xor (a b : Byte) : affLin (a ^^^ b) = affLin a ^^^ affLin b := by
  unfold affLin
  rw [Blk.rotl8_xor a b (by omega : 1 ≤ 8), Blk.rotl8_xor a b (by omega : 2 ≤ 8), Blk.rotl8_xor a b (by omega : 3 ≤ 8), Blk.rotl8_xor a b (by omega : 4 ≤ 8)]
  ac_rfl

theorem loadBlk_xor {a b : Bytes} (h : a.length = b.length) (off : Nat) : loadBlk (xorBytes a b) off = (loadBlk a off).xor (loadBlk b off) := by
  unfold loadBlk
  rw [Blk.ofFn_xor]
  congr 1
  funext i
  exact getD_xorBytes h _

theorem keyExp128_xor (a b g h : Blk) : keyExp128 (a.xor b) (g.xor h) = (keyExp128 a g).xor (keyExp128 b h) := by
  unfold keyExp128
  simp only [Blk.slli4_xor, Blk.bcast_xor]
  ac_rfl

/-- Outputs of `n` bytes, and the run on XORed states XORs outputs and relates the results by `V`. -/
def Lin {α : Type} (n : Nat) (V : α → α → α → Prop) (x y z : AesM Bytes α) : Prop :=
  ∀ s1 s2 : Bytes, s1.length = s2.length → ∃ a b c d1 d2, x s1 = (some a, s1 ++ d1) ∧ y s2 = (some b, s2 ++ d2) ∧
    z (xorBytes s1 s2) = (some c, xorBytes s1 s2 ++ xorBytes d1 d2) ∧ d1.length = n ∧ d2.length = n ∧ V a b c

theorem Lin.pure {α : Type} {V : α → α → α → Prop} {a b c : α} (h : V a b c) : Lin 0 V (Pure.pure a) (Pure.pure b) (Pure.pure c) := by
  intro s1 s2 _
  exact ⟨a, b, c, [], [], by rw [AesM.pure_run, List.append_nil], by rw [AesM.pure_run, List.append_nil], by rw [AesM.pure_run]; simp [xorBytes], rfl, rfl, h⟩

theorem Lin.bind {α β : Type} {V : α → α → α → Prop} {W : β → β → β → Prop} {n m : Nat} {x y z : AesM Bytes α} {f g h : α → AesM Bytes β}
    (hx : Lin n V x y z) (hf : ∀ a b c, V a b c → Lin m W (f a) (g b) (h c)) : Lin (n + m) W (x >>= f) (y >>= g) (z >>= h) := by
  intro s1 s2 hs
  obtain ⟨a, b, c, d1, d2, e1, e2, e3, l1, l2, hv⟩ := hx s1 s2 hs
  obtain ⟨a', b', c', d1', d2', e1', e2', e3', l1', l2', hv'⟩ := hf a b c hv (s1 ++ d1) (s2 ++ d2) (by simp; omega)
  refine ⟨a', b', c', d1 ++ d1', d2 ++ d2', ?_, ?_, ?_, by simp; omega, by simp; omega, hv'⟩
  · rw [AesM.bind_run e1, e1', List.append_assoc]
  · rw [AesM.bind_run e2, e2', List.append_assoc]
  · rw [AesM.bind_run e3, xorBytes_append (by omega), ← List.append_assoc, ← xorBytes_append hs]
    exact e3'

theorem Lin.cast {α : Type} {n m : Nat} {V : α → α → α → Prop} {x y z : AesM Bytes α} (h : Lin n V x y z) (e : n = m) : Lin m V x y z := e ▸ h

/-- The value relation for blocks and for tuples of blocks. -/
def VB (a b c : Blk) : Prop := c = a.xor b
/-- The value relation for lists of blocks. -/
def VL (n : Nat) (a b c : List Blk) : Prop := a.length = n ∧ b.length = n ∧ c = List.zipWith Blk.xor a b

theorem VL.append {n m : Nat} {a b c a' b' c' : List Blk} (h : VL n a b c) (h' : VL m a' b' c') : VL (n + m) (a ++ a') (b ++ b') (c ++ c') := by
  obtain ⟨h1, h2, rfl⟩ := h
  obtain ⟨h1', h2', rfl⟩ := h'
  exact ⟨by simp; omega, by simp; omega, (List.zipWith_append (by omega)).symm⟩

theorem VL.cons {n : Nat} {a b c : List Blk} {x y z : Blk} (hx : VB x y z) (h : VL n a b c) : VL (n + 1) (x :: a) (y :: b) (z :: c) := by
  obtain ⟨h1, h2, rfl⟩ := h
  refine ⟨by simp; omega, by simp; omega, ?_⟩
  rw [List.zipWith_cons_cons, hx]

theorem VL.nil : VL 0 [] [] [] := ⟨rfl, rfl, rfl⟩

/-! ## Key schedules and rounds -/

section
variable {kx ky kz : Blk → Byte → AesM Bytes Blk} (hk : ∀ m m' rc, Lin 4 VB (kx m rc) (ky m' rc) (kz (m.xor m') rc))
include hk

theorem keySched128_lin (a b : Blk) : Lin 40 (VL 11) (keySched128 kx a) (keySched128 ky b) (keySched128 kz (a.xor b)) := by
  unfold keySched128
  have key : ∀ (l : List Byte) (n : Nat) (st st' st'' : List Blk × Blk), VL n st.1 st'.1 st''.1 → VB st.2 st'.2 st''.2 →
      Lin (4 * l.length) (fun u v w => VL (n + l.length) u.1 v.1 w.1 ∧ VB u.2 v.2 w.2)
        (l.foldlM (fun (st : List Blk × Blk) rcon => do
          let g ← kx st.2 rcon
          let k := keyExp128 st.2 g
          Pure.pure (st.1 ++ [k], k)) st)
        (l.foldlM (fun (st : List Blk × Blk) rcon => do
          let g ← ky st.2 rcon
          let k := keyExp128 st.2 g
          Pure.pure (st.1 ++ [k], k)) st')
        (l.foldlM (fun (st : List Blk × Blk) rcon => do
          let g ← kz st.2 rcon
          let k := keyExp128 st.2 g
          Pure.pure (st.1 ++ [k], k)) st'') := by
    intro l
    induction l with
    | nil => intro n st st' st'' h1 h2; exact Lin.pure ⟨h1, h2⟩
    | cons rc l ih =>
      intro n st st' st'' h1 h2
      simp only [List.foldlM_cons]
      refine Lin.cast (Lin.bind (V := fun u v w => VL (n + 1) u.1 v.1 w.1 ∧ VB u.2 v.2 w.2) (n := 4) (m := 4 * l.length) ?_ ?_) (by simp; omega)
      · rw [h2]
        refine (hk st.2 st'.2 rc).bind (m := 0) ?_
        rintro g g' g'' rfl
        refine Lin.pure ⟨?_, ?_⟩
        · dsimp only
          rw [keyExp128_xor]
          exact h1.append (VL.cons rfl VL.nil)
        · exact keyExp128_xor _ _ _ _
      · rintro u v w ⟨h3, h4⟩
        have := ih (n + 1) u v w h3 h4
        rw [show n + (rc :: l).length = n + 1 + l.length by simp; omega]
        exact this
  refine (key rcons128 1 ([a], a) ([b], b) ([a.xor b], a.xor b) (VL.cons rfl VL.nil) rfl).bind (m := 0) ?_
  rintro u v w ⟨h1, _⟩
  exact Lin.pure h1

end

theorem key192Assist_xor (a b g h c d : Blk) : key192Assist (a.xor b) (g.xor h) (c.xor d) =
    ((key192Assist a g c).1.xor (key192Assist b h d).1, (key192Assist a g c).2.xor (key192Assist b h d).2) := by
  unfold key192Assist
  simp only [Blk.slli4_xor, Blk.bcast_xor]
  refine Prod.ext ?_ ?_
  · dsimp only
    ac_rfl
  · dsimp only
    ac_rfl

theorem key256Assist1_xor (a b g h : Blk) : key256Assist1 (a.xor b) (g.xor h) = (key256Assist1 a g).xor (key256Assist1 b h) := by
  unfold key256Assist1
  simp only [Blk.slli4_xor, Blk.bcast_xor]
  ac_rfl

theorem key256Assist2_xor (a b g h : Blk) : key256Assist2 (a.xor b) (g.xor h) = (key256Assist2 a g).xor (key256Assist2 b h) := by
  unfold key256Assist2
  simp only [Blk.slli4_xor, Blk.bcast_xor]
  ac_rfl

section
variable {kx ky kz : Blk → Byte → AesM Bytes Blk} (hk : ∀ m m' rc, Lin 4 VB (kx m rc) (ky m' rc) (kz (m.xor m') rc))
include hk

theorem keySched192_lin (a b c d : Blk) : Lin 32 (VL 13) (keySched192 kx a c) (keySched192 ky b d) (keySched192 kz (a.xor b) (c.xor d)) := by
  unfold keySched192
  dsimp only
  refine Lin.bind (n := 4) (m := 28) (hk _ _ _) ?_
  rintro g0 g0' _ rfl
  rw [key192Assist_xor]
  generalize key192Assist a g0 c = p1
  generalize key192Assist b g0' d = q1
  refine Lin.bind (n := 4) (m := 24) (hk _ _ _) ?_
  rintro g1 g1' _ rfl
  rw [key192Assist_xor]
  generalize key192Assist p1.1 g1 p1.2 = p2
  generalize key192Assist q1.1 g1' q1.2 = q2
  refine Lin.bind (n := 4) (m := 20) (hk _ _ _) ?_
  rintro g2 g2' _ rfl
  rw [key192Assist_xor]
  generalize key192Assist p2.1 g2 p2.2 = p3
  generalize key192Assist q2.1 g2' q2.2 = q3
  refine Lin.bind (n := 4) (m := 16) (hk _ _ _) ?_
  rintro g3 g3' _ rfl
  rw [key192Assist_xor]
  generalize key192Assist p3.1 g3 p3.2 = p4
  generalize key192Assist q3.1 g3' q3.2 = q4
  refine Lin.bind (n := 4) (m := 12) (hk _ _ _) ?_
  rintro g4 g4' _ rfl
  rw [key192Assist_xor]
  generalize key192Assist p4.1 g4 p4.2 = p5
  generalize key192Assist q4.1 g4' q4.2 = q5
  refine Lin.bind (n := 4) (m := 8) (hk _ _ _) ?_
  rintro g5 g5' _ rfl
  rw [key192Assist_xor]
  generalize key192Assist p5.1 g5 p5.2 = p6
  generalize key192Assist q5.1 g5' q5.2 = q6
  refine Lin.bind (n := 4) (m := 4) (hk _ _ _) ?_
  rintro g6 g6' _ rfl
  rw [key192Assist_xor]
  generalize key192Assist p6.1 g6 p6.2 = p7
  generalize key192Assist q6.1 g6' q6.2 = q7
  refine Lin.bind (n := 4) (m := 0) (hk _ _ _) ?_
  rintro g7 g7' _ rfl
  rw [key192Assist_xor]
  generalize key192Assist p7.1 g7 p7.2 = p8
  generalize key192Assist q7.1 g7' q7.2 = q8
  refine Lin.pure ⟨rfl, rfl, ?_⟩
  simp only [List.zipWith_cons_cons, List.zipWith_nil_left, Blk.shufflePd0_xor, Blk.shufflePd1_xor]

theorem keySched256_lin {k2x k2y k2z : Blk → AesM Bytes Blk} (hk2 : ∀ m m', Lin 4 VB (k2x m) (k2y m') (k2z (m.xor m'))) (a b c d : Blk) :
    Lin 52 (VL 15) (keySched256 kx k2x a c) (keySched256 ky k2y b d) (keySched256 kz k2z (a.xor b) (c.xor d)) := by
  unfold keySched256
  have key : ∀ (l : List Byte) (n : Nat) (st st' st'' : List Blk × Blk × Blk), VL n st.1 st'.1 st''.1 → VB st.2.1 st'.2.1 st''.2.1 → VB st.2.2 st'.2.2 st''.2.2 →
      Lin (8 * l.length) (fun u v w => VL (n + 2 * l.length) u.1 v.1 w.1 ∧ VB u.2.1 v.2.1 w.2.1 ∧ VB u.2.2 v.2.2 w.2.2)
        (l.foldlM (fun (st : List Blk × Blk × Blk) rcon => do
          let (ks, t1, t3) := st
          let g ← kx t3 rcon
          let t1 := key256Assist1 t1 g
          let g2 ← k2x t1
          let t3 := key256Assist2 g2 t3
          Pure.pure (ks ++ [t1, t3], t1, t3)) st)
        (l.foldlM (fun (st : List Blk × Blk × Blk) rcon => do
          let (ks, t1, t3) := st
          let g ← ky t3 rcon
          let t1 := key256Assist1 t1 g
          let g2 ← k2y t1
          let t3 := key256Assist2 g2 t3
          Pure.pure (ks ++ [t1, t3], t1, t3)) st')
        (l.foldlM (fun (st : List Blk × Blk × Blk) rcon => do
          let (ks, t1, t3) := st
          let g ← kz t3 rcon
          let t1 := key256Assist1 t1 g
          let g2 ← k2z t1
          let t3 := key256Assist2 g2 t3
          Pure.pure (ks ++ [t1, t3], t1, t3)) st'') := by
    intro l
    induction l with
    | nil => intro n st st' st'' h1 h2 h3; exact Lin.pure ⟨h1, h2, h3⟩
    | cons rc l ih =>
      intro n st st' st'' h1 h2 h3
      obtain ⟨ks, t1, t3⟩ := st
      obtain ⟨ks', t1', t3'⟩ := st'
      obtain ⟨ks'', t1'', t3''⟩ := st''
      simp only [List.foldlM_cons]
      refine Lin.cast (Lin.bind (V := fun u v w => VL (n + 2) u.1 v.1 w.1 ∧ VB u.2.1 v.2.1 w.2.1 ∧ VB u.2.2 v.2.2 w.2.2) (n := 8) (m := 8 * l.length) ?_ ?_) (by simp; omega)
      · dsimp only [VB] at h2 h3 ⊢
        rw [h2, h3]
        refine Lin.bind (n := 4) (m := 4) (hk _ _ rc) ?_
        rintro g g' g'' rfl
        rw [key256Assist1_xor]
        refine Lin.bind (n := 4) (m := 0) (hk2 _ _) ?_
        rintro g2 g2' _ rfl
        rw [key256Assist2_xor]
        exact Lin.pure ⟨h1.append (VL.cons rfl (VL.cons rfl VL.nil)), rfl, rfl⟩
      · rintro u v w ⟨h4, h5, h6⟩
        have := ih (n + 2) u v w h4 h5 h6
        rw [show n + 2 * (rc :: l).length = n + 2 + 2 * l.length by simp; omega]
        exact this
  refine Lin.bind (n := 48) (m := 4) (key rcons256 2 ([a, c], a, c) ([b, d], b, d) ([a.xor b, c.xor d], a.xor b, c.xor d) (VL.cons rfl (VL.cons rfl VL.nil)) rfl rfl) ?_
  rintro ⟨ks, t1, t3⟩ ⟨ks', t1', t3'⟩ ⟨ks'', t1'', t3''⟩ ⟨h1, h2, h3⟩
  dsimp only [VB] at h2 h3 ⊢
  rw [h2, h3]
  refine Lin.bind (n := 4) (m := 0) (hk _ _ _) ?_
  rintro g g' g'' rfl
  rw [key256Assist1_xor]
  exact Lin.pure (h1.append (VL.cons rfl VL.nil))

end

theorem exists_mid {α : Type} {l : List α} (h : 2 ≤ l.length) : ∃ a m b, l = a :: (m ++ [b]) := by
  match l, h with
  | a :: t, h =>
    refine ⟨a, t.dropLast, t.getLast (by rintro rfl; simp at h), ?_⟩
    rw [List.dropLast_concat_getLast]

theorem rounds_mid {σ : Type} (sub : Blk → AesM σ Blk) (mix : Blk → Blk) (k0 kl : Blk) (ms : List Blk) (pt : Blk) :
    rounds sub mix (k0 :: (ms ++ [kl])) pt = (do
      let m ← ms.foldlM (fun m k => do
        let m ← sub m
        Pure.pure ((mix m).xor k)) (pt.xor k0)
      let m ← sub m
      Pure.pure (m.xor kl)) := by
  unfold rounds
  have h1 : (k0 :: (ms ++ [kl])).getLastD (Vector.replicate 16 0) = kl := by
    rw [List.getLastD_cons, List.getLastD_concat]
  have h2 : ((k0 :: (ms ++ [kl])).drop 1).dropLast = ms := by
    rw [List.drop_succ_cons, List.drop_zero, List.dropLast_concat]
  rw [h1, h2]
  rfl

theorem rounds_lin {sx sy sz : Blk → AesM Bytes Blk} (hs : ∀ m m', Lin 16 VB (sx m) (sy m') (sz (m.xor m'))) (n : Nat) {ks ks' ks'' : List Blk}
    (h : VL (n + 2) ks ks' ks'') (a b : Blk) : Lin (16 * (n + 1)) VB (rounds sx Blk.imc3 ks a) (rounds sy Blk.imc3 ks' b) (rounds sz Blk.imc3 ks'' (a.xor b)) := by
  obtain ⟨h1, h2, rfl⟩ := h
  obtain ⟨k0, ms, kl, rfl⟩ := exists_mid (l := ks) (by omega)
  obtain ⟨k0', ms', kl', rfl⟩ := exists_mid (l := ks') (by omega)
  simp only [List.length_cons, List.length_append, List.length_nil] at h1 h2
  rw [List.zipWith_cons_cons, List.zipWith_append (by omega), List.zipWith_cons_cons, List.zipWith_nil_left, rounds_mid, rounds_mid, rounds_mid]
  have key : ∀ (n : Nat) (ms ms' : List Blk), ms.length = n → ms'.length = n → ∀ m m', Lin (16 * n) VB
      (ms.foldlM (fun m k => do
        let m ← sx m
        Pure.pure ((Blk.imc3 m).xor k)) m)
      (ms'.foldlM (fun m k => do
        let m ← sy m
        Pure.pure ((Blk.imc3 m).xor k)) m')
      ((List.zipWith Blk.xor ms ms').foldlM (fun m k => do
        let m ← sz m
        Pure.pure ((Blk.imc3 m).xor k)) (m.xor m')) := by
    intro n
    induction n with
    | zero =>
      intro ms ms' h h' m m'
      rw [List.length_eq_zero_iff.1 h, List.length_eq_zero_iff.1 h']
      exact Lin.pure rfl
    | succ n ih =>
      intro ms ms' h h' m m'
      match ms, ms', h, h' with
      | k :: ms, k' :: ms', h, h' =>
        simp only [List.zipWith_cons_cons, List.foldlM_cons]
        refine Lin.cast (Lin.bind (V := VB) (n := 16) (m := 16 * n) ?_ ?_) (by omega)
        · refine Lin.bind (n := 16) (m := 0) (hs m m') ?_
          rintro u v _ rfl
          refine Lin.pure ?_
          rw [Blk.imc3_xor, Blk.xor_xor_xor]
          rfl
        · rintro u v _ rfl
          exact ih ms ms' (by simpa using h) (by simpa using h') u v
  rw [Blk.xor_xor_xor]
  refine Lin.cast (Lin.bind (V := VB) (n := 16 * n) (m := 16) (key n ms ms' (by omega) (by omega) _ _) ?_) (by omega)
  rintro u v _ rfl
  refine Lin.bind (n := 16) (m := 0) (hs u v) ?_
  rintro u v _ rfl
  refine Lin.pure ?_
  rw [Blk.xor_xor_xor]
  rfl

/-! ## The share primitives -/

/-- The register computed by `subShare` from the loaded `t` shares. -/
def subOut (first : Bool) (loaded : Blk) : Blk :=
  let sh : Blk := Vector.ofFn fun i => loaded[restoreIdx[i]]
  let tmp := (sh.rotl 1).xor (sh.rotl 3)
  let tmp := tmp.xor (tmp.rotl 1)
  let r := tmp.xor sh
  if first then r.xor (Vector.replicate 16 affConst) else r

theorem subShare_run (first : Bool) (t : Bytes) (m : Blk) (st : Bytes) :
    subShare first t m st = (some (subOut first (loadBlk t st.length)), st ++ m.rowOrder.toList) := rfl

theorem subOut_xor (f : Bool) (x y : Blk) : subOut f (x.xor y) = (subOut f x).xor (subOut false y) := by
  unfold subOut
  have e : (Vector.ofFn fun i => (x.xor y)[restoreIdx[i]] : Blk) = Blk.xor (Vector.ofFn fun i => x[restoreIdx[i]]) (Vector.ofFn fun i => y[restoreIdx[i]]) := by
    apply Vector.ext
    intro i h
    simp only [Blk.getElem_xor, Vector.getElem_ofFn, Fin.getElem_fin]
  rw [e]
  generalize (Vector.ofFn fun i => x[restoreIdx[i]] : Blk) = u
  generalize (Vector.ofFn fun i => y[restoreIdx[i]] : Blk) = v
  dsimp only
  have e1 : ((Blk.xor u v).rotl 1).xor ((Blk.xor u v).rotl 3) = ((Blk.rotl u 1).xor (Blk.rotl u 3)).xor ((Blk.rotl v 1).xor (Blk.rotl v 3)) := by
    rw [Blk.rotl_xor u v (by omega : 1 ≤ 8), Blk.rotl_xor u v (by omega : 3 ≤ 8), Blk.xor_xor_xor]
  rw [e1]
  generalize (Blk.rotl u 1).xor (Blk.rotl u 3) = p
  generalize (Blk.rotl v 1).xor (Blk.rotl v 3) = q
  rw [Blk.rotl_xor p q (by omega : 1 ≤ 8), Blk.xor_xor_xor p q, Blk.xor_xor_xor _ _ u v]
  cases f
  · rfl
  · simp only [if_true, Bool.false_eq_true, if_false]
    generalize (Vector.replicate 16 affConst : Blk) = w
    generalize (p.xor (Blk.rotl p 1)).xor u = p'
    generalize (q.xor (Blk.rotl q 1)).xor v = q'
    ac_rfl

section
variable {t t' : Bytes} (ht : t.length = t'.length) (f : Bool)
include ht

theorem exchangeWord_lin (aff rc : Byte) (w w' : List Byte) (hw : w.length = 4) (hw' : w'.length = 4) :
    Lin 4 (fun u v x => ∀ i (hi : i < 4), x[i] = u[i] ^^^ v[i]) (exchangeWord t aff rc w) (exchangeWord t' 0 0 w') (exchangeWord (xorBytes t t') aff rc (xorBytes w w')) := by
  intro s1 s2 hs
  refine ⟨_, _, _, w, w', rfl, rfl, rfl, hw, hw', ?_⟩
  intro i hi
  rw [Vector.getElem_ofFn, Vector.getElem_ofFn, Vector.getElem_ofFn]
  have hl : (xorBytes s1 s2).length = s1.length := by rw [length_xorBytes]; omega
  dsimp only
  rw [hl, getD_xorBytes ht, affLin_xor, ← hs]
  by_cases h0 : i = 0
  · simp only [if_pos h0]
    generalize affLin (t.getD (s1.length + i) 0) = x
    generalize affLin (t'.getD (s1.length + i) 0) = y
    rw [show y ^^^ 0 ^^^ 0 = y by simp]
    ac_rfl
  · simp only [if_neg h0]
    generalize affLin (t.getD (s1.length + i) 0) = x
    generalize affLin (t'.getD (s1.length + i) 0) = y
    rw [show y ^^^ 0 ^^^ 0 = y by simp]
    ac_rfl

theorem kgenShare_lin (m m' : Blk) (rc : Byte) : Lin 4 VB (kgenShare f t m rc) (kgenShare false t' m' rc) (kgenShare f (xorBytes t t') (m.xor m') rc) := by
  have := exchangeWord_lin ht (if f then affConst else 0) (if f then rc else 0) [m[13], m[14], m[15], m[12]] [m'[13], m'[14], m'[15], m'[12]] rfl rfl
  have e : [(m.xor m')[13], (m.xor m')[14], (m.xor m')[15], (m.xor m')[12]] = xorBytes [m[13], m[14], m[15], m[12]] [m'[13], m'[14], m'[15], m'[12]] := by
    simp only [Blk.getElem_xor]
    rfl
  rw [← e] at this
  refine Lin.bind (n := 4) (m := 0) this ?_
  · intro u v w h
    exact Lin.pure (Blk.ofWord_xor 3 u v w h)

theorem kgenShare192_lin (m m' : Blk) (rc : Byte) : Lin 4 VB (kgenShare192 f t m rc) (kgenShare192 false t' m' rc) (kgenShare192 f (xorBytes t t') (m.xor m') rc) := by
  have := exchangeWord_lin ht (if f then affConst else 0) (if f then rc else 0) [m[5], m[6], m[7], m[4]] [m'[5], m'[6], m'[7], m'[4]] rfl rfl
  have e : [(m.xor m')[5], (m.xor m')[6], (m.xor m')[7], (m.xor m')[4]] = xorBytes [m[5], m[6], m[7], m[4]] [m'[5], m'[6], m'[7], m'[4]] := by
    simp only [Blk.getElem_xor]
    rfl
  rw [← e] at this
  refine Lin.bind (n := 4) (m := 0) this ?_
  · intro u v w h
    exact Lin.pure (Blk.ofWord_xor 1 u v w h)

theorem kgenShare256b_lin (m m' : Blk) : Lin 4 VB (kgenShare256b f t m) (kgenShare256b false t' m') (kgenShare256b f (xorBytes t t') (m.xor m')) := by
  have := exchangeWord_lin ht (if f then affConst else 0) 0 [m[12], m[13], m[14], m[15]] [m'[12], m'[13], m'[14], m'[15]] rfl rfl
  have e : [(m.xor m')[12], (m.xor m')[13], (m.xor m')[14], (m.xor m')[15]] = xorBytes [m[12], m[13], m[14], m[15]] [m'[12], m'[13], m'[14], m'[15]] := by
    simp only [Blk.getElem_xor]
    rfl
  rw [← e] at this
  refine Lin.bind (n := 4) (m := 0) this ?_
  · intro u v w h
    exact Lin.pure (Blk.ofWord_xor 2 u v w h)

theorem subShare_lin (m m' : Blk) : Lin 16 VB (subShare f t m) (subShare false t' m') (subShare f (xorBytes t t') (m.xor m')) := by
  intro s1 s2 hs
  have hl : (xorBytes s1 s2).length = s1.length := by rw [length_xorBytes]; omega
  refine ⟨_, _, _, m.rowOrder.toList, m'.rowOrder.toList, subShare_run f t m s1, subShare_run false t' m' s2, ?_, by simp, by simp, rfl⟩
  rw [subShare_run, Blk.rowOrder_xor, Blk.xor_toList, hl, loadBlk_xor ht, ← hs, subOut_xor]

end

theorem partyPt_lin (f : Bool) (pt : Bytes) (off : Nat) : partyPt f pt off = (partyPt f pt off).xor (partyPt false pt off) := by
  apply Vector.ext
  intro i h
  rw [Blk.getElem_xor]
  unfold partyPt
  simp

theorem Lin.run {n : Nat} {V : Bytes → Bytes → Bytes → Prop} {x y z : AesM Bytes Bytes} (h : Lin n V x y z) :
    (x []).2.length = n ∧ (y []).2.length = n ∧ (z []).2 = xorBytes (x []).2 (y []).2 ∧ V ((x []).1.getD []) ((y []).1.getD []) ((z []).1.getD []) := by
  obtain ⟨a, b, c, d1, d2, e1, e2, e3, l1, l2, hv⟩ := h [] [] rfl
  have e3' : z [] = (some c, xorBytes d1 d2) := e3
  rw [e1, e2, e3']
  exact ⟨l1, l2, rfl, hv⟩

/-- The value relation for byte strings of length `n`. -/
def VY (n : Nat) (a b c : Bytes) : Prop := a.length = n ∧ b.length = n ∧ c = xorBytes a b

theorem VB.toList {a b c : Blk} (h : VB a b c) : VY 16 a.toList b.toList c.toList := by
  rw [h]
  exact ⟨by simp, by simp, Blk.xor_toList a b⟩

theorem VY.append {n m : Nat} {a b c a' b' c' : Bytes} (h : VY n a b c) (h' : VY m a' b' c') : VY (n + m) (a ++ a') (b ++ b') (c ++ c') := by
  obtain ⟨h1, h2, rfl⟩ := h
  obtain ⟨h1', h2', rfl⟩ := h'
  exact ⟨by simp; omega, by simp; omega, (xorBytes_append (by omega)).symm⟩

/-- Number of S-boxes for a key size. -/
def sboxCount (keySize : Nat) : Nat := if keySize = 16 then 200 else if keySize = 24 then 416 else 500
/-- Ciphertext length for a key size. -/
def ctLength (keySize : Nat) : Nat := if keySize = 16 then 16 else 32

/-- The computation behind `aesParty`. -/
def partyM (keySize : Nat) (first : Bool) (key t pt : Bytes) : AesM Bytes Bytes :=
  if keySize = 16 then do
    let ks ← keySched128 (kgenShare first t) (loadBlk key 0)
    let m ← rounds (subShare first t) Blk.imc3 ks (partyPt first pt 0)
    Pure.pure m.toList
  else if keySize = 24 then do
    let ks ← keySched192 (kgenShare192 first t) (loadBlk key 0) (loadBlk key 16)
    let m ← rounds (subShare first t) Blk.imc3 ks (partyPt first pt 0)
    let n ← rounds (subShare first t) Blk.imc3 ks (partyPt first pt 16)
    Pure.pure (m.toList ++ n.toList)
  else do
    let ks ← keySched256 (kgenShare first t) (kgenShare256b first t) (loadBlk key 0) (loadBlk key 16)
    let m ← rounds (subShare first t) Blk.imc3 ks (partyPt first pt 0)
    let n ← rounds (subShare first t) Blk.imc3 ks (partyPt first pt 16)
    Pure.pure (m.toList ++ n.toList)

theorem aesParty_eq (keySize : Nat) (first : Bool) (key t pt : Bytes) :
    aesParty keySize first key t pt = ((partyM keySize first key t pt []).2, (partyM keySize first key t pt []).1.getD []) := by
  unfold aesParty partyM
  split
  · rfl
  split
  · rfl
  · rfl

/-- Linearity of the shared evaluation. -/
theorem partyM_lin (keySize : Nat) (f : Bool) {k k' t t' : Bytes} (hk : k.length = k'.length) (ht : t.length = t'.length) (pt : Bytes) :
    Lin (sboxCount keySize) (VY (ctLength keySize)) (partyM keySize f k t pt) (partyM keySize false k' t' pt) (partyM keySize f (xorBytes k k') (xorBytes t t') pt) := by
  unfold partyM sboxCount ctLength
  split
  · rw [loadBlk_xor hk]
    refine Lin.bind (n := 40) (m := 160) (keySched128_lin (kgenShare_lin ht f) _ _) ?_
    intro ks ks' ks'' h
    refine Lin.bind (n := 160) (m := 0) (V := VB) (W := VY 16) ?_ ?_
    · have := rounds_lin (subShare_lin ht f) 9 h (partyPt f pt 0) (partyPt false pt 0)
      rw [← partyPt_lin] at this
      exact this
    · intro a b c h
      exact Lin.pure h.toList
  split
  · rw [loadBlk_xor hk, loadBlk_xor hk]
    refine Lin.bind (n := 32) (m := 384) (keySched192_lin (kgenShare192_lin ht f) _ _ _ _) ?_
    intro ks ks' ks'' h
    refine Lin.bind (n := 192) (m := 192) (V := VB) (W := VY 32) ?_ ?_
    · have := rounds_lin (subShare_lin ht f) 11 h (partyPt f pt 0) (partyPt false pt 0)
      rw [← partyPt_lin] at this
      exact this
    · intro a b c h1
      refine Lin.bind (n := 192) (m := 0) (V := VB) (W := VY 32) ?_ ?_
      · have := rounds_lin (subShare_lin ht f) 11 h (partyPt f pt 16) (partyPt false pt 16)
        rw [← partyPt_lin] at this
        exact this
      · intro a' b' c' h2
        exact Lin.pure (h1.toList.append h2.toList)
  · rw [loadBlk_xor hk, loadBlk_xor hk]
    refine Lin.bind (n := 52) (m := 448) (keySched256_lin (kgenShare_lin ht f) (kgenShare256b_lin ht f) _ _ _ _) ?_
    intro ks ks' ks'' h
    refine Lin.bind (n := 224) (m := 224) (V := VB) (W := VY 32) ?_ ?_
    · have := rounds_lin (subShare_lin ht f) 13 h (partyPt f pt 0) (partyPt false pt 0)
      rw [← partyPt_lin] at this
      exact this
    · intro a b c h1
      refine Lin.bind (n := 224) (m := 0) (V := VB) (W := VY 32) ?_ ?_
      · have := rounds_lin (subShare_lin ht f) 13 h (partyPt f pt 16) (partyPt false pt 16)
        rw [← partyPt_lin] at this
        exact this
      · intro a' b' c' h2
        exact Lin.pure (h1.toList.append h2.toList)

/-- Linearity of the shared evaluation. -/
theorem aesParty_lin (keySize : Nat) (f : Bool) {k k' t t' : Bytes} (hk : k.length = k'.length) (ht : t.length = t'.length) (pt : Bytes) :
    (aesParty keySize f k t pt).1.length = sboxCount keySize ∧ (aesParty keySize false k' t' pt).1.length = sboxCount keySize ∧
    (aesParty keySize f (xorBytes k k') (xorBytes t t') pt).1 = xorBytes (aesParty keySize f k t pt).1 (aesParty keySize false k' t' pt).1 ∧
    VY (ctLength keySize) (aesParty keySize f k t pt).2 (aesParty keySize false k' t' pt).2 (aesParty keySize f (xorBytes k k') (xorBytes t t') pt).2 := by
  rw [aesParty_eq, aesParty_eq, aesParty_eq]
  exact Lin.run (partyM_lin keySize f hk ht pt)

/-- Lengths of the outputs. -/
theorem aesParty_length (keySize : Nat) (f : Bool) (k t pt : Bytes) :
    (aesParty keySize f k t pt).1.length = sboxCount keySize ∧ (aesParty keySize f k t pt).2.length = ctLength keySize := by
  obtain ⟨h1, _, _, h2, _⟩ := aesParty_lin keySize f (rfl : k.length = k.length) (rfl : t.length = t.length) pt
  exact ⟨h1, h2⟩

end Banquet
