import Verif.Model.SpanRep
import Verif.Props.Span

/-! Property theorems C102: containers and tapes with pointers. -/

namespace Banquet.Props

open Gsl

/-- C102. The vector of a container in memory, with its three sizes. -/
structure Stored {α : Type} (m : Mem α) (c : RepContainer α) (numParties objectSize : W64) : Prop where
  notNull : 0 < m.base
  fits : m.base + m.cells.length < 2 ^ 64
  cells : m.cells = c.data
  parties : numParties.toNat = c.numParties
  size : objectSize.toNat = c.objectSize

variable {α : Type} {m : Mem α} {c : RepContainer α} {n o : W64}

private theorem toNat_offset (h : Stored m c n o) (e p : W64) (hr : c.offset e.toNat p.toNat + c.objectSize ≤ c.data.length) : (e * n * o + p * o).toNat = c.offset e.toNat p.toNat := by
  have h1 := h.fits
  rw [h.cells] at h1
  unfold RepContainer.offset at hr ⊢
  rw [BitVec.toNat_add, BitVec.toNat_mul, BitVec.toNat_mul, BitVec.toNat_mul, h.parties, h.size]
  conv_lhs => rw [Nat.mod_mul_mod]
  rw [← Nat.add_mod, Nat.mod_eq_of_lt (by omega)]

/-- C102. `get`: whenever the slice is inside the vector, the span computed with 64 bit arithmetic stands for it. -/
theorem C102_get (h : Stored m c n o) (e p : W64) (hr : c.offset e.toNat p.toNat + c.objectSize ≤ c.data.length) :
    ∃ t, repGet m n o e p = .ok t ∧ Inside m t ∧ view m t = c.read e.toNat p.toNat := by
  have ho := toNat_offset h e p hr
  unfold repGet ptrAdd
  dsimp only
  rw [ho, if_pos (.inl ⟨le_rfl, by rw [h.cells]; omega⟩), ok_bind]
  obtain ⟨t, h1, h2, h3⟩ := C101_make (m := m) h.notNull h.fits (c.offset e.toNat p.toNat) o (by rw [h.cells, h.size]; exact hr)
  refine ⟨t, h1, h2, h3.trans ?_⟩
  rw [RepContainer.read, h.cells, h.size]

/-- C102. That is so for every repetition and party of a container that was constructed. -/
theorem C102_all (h : Stored m c n o) (hc : c.data.length = c.numRepetitions * c.numParties * c.objectSize) (e p : W64) (he : e.toNat < c.numRepetitions) (hp : p.toNat < c.numParties) :
    ∃ t, repGet m n o e p = .ok t ∧ Inside m t ∧ view m t = c.read e.toNat p.toNat := by
  refine C102_get h e p ?_
  rw [hc, RepContainer.offset]
  calc e.toNat * c.numParties * c.objectSize + p.toNat * c.objectSize + c.objectSize = (e.toNat * c.numParties + (p.toNat + 1)) * c.objectSize := by ring
    _ ≤ (e.toNat * c.numParties + c.numParties) * c.objectSize := Nat.mul_le_mul_right _ (by omega)
    _ = (e.toNat + 1) * c.numParties * c.objectSize := by ring
    _ ≤ c.numRepetitions * c.numParties * c.objectSize := Nat.mul_le_mul_right _ (Nat.mul_le_mul_right _ he)

/-- C102. Elements: the code with pointers does what the model of the loops (C68) says, the element or termination. -/
theorem C102_read (h : Stored m c n o) (e p j : W64) (hr : c.offset e.toNat p.toNat + c.objectSize ≤ c.data.length) : repRead m n o e p j = Loops.spanRd c e.toNat p.toNat j.toNat := by
  obtain ⟨t, h1, h2, h3⟩ := C102_get h e p hr
  have hl : (view m t).length = c.objectSize := by
    rw [h3, RepContainer.read, List.length_take, List.length_drop]; omega
  unfold repRead Loops.spanRd require
  rw [h1, ok_bind]
  by_cases hj : j.toNat < c.objectSize
  · rw [(C101_get h2 j).1 (by omega), if_pos (decide_eq_true hj), ok_bind]
    have hlt : c.offset e.toNat p.toNat + j.toNat < c.data.length := by omega
    unfold Loops.rd
    rw [List.getElem?_eq_getElem hlt]
    congr 1
    have : (view m t)[j.toNat]? = c.data[c.offset e.toNat p.toNat + j.toNat]? := by
      rw [h3, RepContainer.read, List.getElem?_take, if_pos hj, List.getElem?_drop]
    rw [List.getElem?_eq_getElem (by omega), List.getElem?_eq_getElem hlt] at this
    exact Option.some.inj this
  · rw [(C101_get h2 j).2.1 (by omega), if_neg (by simpa using hj)]
    rfl

/-- C102. Writes: the vector afterwards is that of the model of the loops, or the program terminates in both. -/
theorem C102_write (h : Stored m c n o) (e p j : W64) (x : α) (hr : c.offset e.toNat p.toNat + c.objectSize ≤ c.data.length) :
    repWrite m n o e p j x = (Loops.spanWr c e.toNat p.toNat j.toNat x).map fun c' => ⟨m.base, c'.data⟩ := by
  have ho := toNat_offset h e p hr
  have hf := h.fits
  have hb := h.notNull
  have hcl : m.cells.length = c.data.length := by rw [h.cells]
  have hz := h.size
  have hg : repGet m n o e p = .ok ⟨m.base + c.offset e.toNat p.toNat, m.base + c.offset e.toNat p.toNat + o.toNat⟩ := by
    unfold repGet Span.make expects ptrAdd
    dsimp only
    have hc : (decide (o = 0) || (decide (o > 0) && decide (m.base + c.offset e.toNat p.toNat ≠ 0))) = true := by
      by_cases h0 : o = 0
      · simp [h0]
      · have : o > 0 := by
          rw [gt_iff_lt, BitVec.lt_def]
          have : o.toNat ≠ 0 := fun c => h0 (BitVec.eq_of_toNat_eq c)
          simpa using Nat.pos_of_ne_zero this
        rw [decide_eq_true this, decide_eq_true (show m.base + c.offset e.toNat p.toNat ≠ 0 by omega)]
        simp
    rw [ho, if_pos (.inl ⟨le_rfl, by omega⟩), ok_bind, if_pos hc, ok_bind, if_pos (.inl ⟨by omega, by omega⟩), ok_bind]
  unfold repWrite Loops.spanWr require expects
  rw [hg, ok_bind]
  have hs : (Span.size ⟨m.base + c.offset e.toNat p.toNat, m.base + c.offset e.toNat p.toNat + o.toNat⟩) = o := by
    unfold Span.size
    dsimp only
    rw [Nat.add_sub_cancel_left, BitVec.ofNat_toNat, BitVec.setWidth_eq]
  rw [hs]
  by_cases hj : j.toNat < c.objectSize
  · have hlt : c.offset e.toNat p.toNat + j.toNat < c.data.length := by omega
    rw [if_pos (decide_eq_true (by rw [BitVec.lt_def]; omega)), if_pos (decide_eq_true hj), ok_bind, ok_bind]
    unfold ptrAdd store Loops.wr
    dsimp only
    rw [if_pos (.inl ⟨by omega, by omega⟩), ok_bind, if_pos ⟨by omega, by omega⟩, if_pos hlt, ok_bind, h.cells, show m.base + c.offset e.toNat p.toNat + j.toNat - m.base = c.offset e.toNat p.toNat + j.toNat by omega]
    rfl
  · rw [if_neg (by rw [decide_eq_true_iff, BitVec.lt_def]; omega), if_neg (by simpa using hj)]
    rfl

private theorem mapM_ok {β γ : Type} (f : β → M γ) (P : β → γ → Prop) : ∀ l : List β, (∀ x ∈ l, ∃ y, f x = .ok y ∧ P x y) → ∃ ys, l.mapM f = .ok ys ∧ List.Forall₂ P l ys
  | [], _ => ⟨[], rfl, .nil⟩
  | x :: l, h => by
    obtain ⟨y, h1, h2⟩ := h x (by simp)
    obtain ⟨ys, h3, h4⟩ := mapM_ok f P l fun z hz => h z (by simp [hz])
    refine ⟨y :: ys, ?_, .cons h2 h4⟩
    rw [List.mapM_cons, h1, ok_bind, h3, ok_bind]
    rfl

/-- C102. `get_repetition`: one span for each party, in order, each inside the vector and over the elements of its party. -/
theorem C102_repetition (h : Stored m c n o) (hc : c.data.length = c.numRepetitions * c.numParties * c.objectSize) (e : W64) (he : e.toNat < c.numRepetitions) :
    ∃ ts, repetitionSpans m n o e = .ok ts ∧ List.Forall₂ (fun p t => Inside m t ∧ view m t = c.read e.toNat p) (List.range c.numParties) ts := by
  unfold repetitionSpans
  rw [h.parties]
  refine mapM_ok _ _ _ fun i hi => ?_
  rw [List.mem_range] at hi
  have hn : i < 2 ^ 64 := by have := n.isLt; rw [h.parties] at this; omega
  have hr : c.offset e.toNat i + c.objectSize ≤ c.data.length := by
    rw [hc, RepContainer.offset]
    calc e.toNat * c.numParties * c.objectSize + i * c.objectSize + c.objectSize = (e.toNat * c.numParties + (i + 1)) * c.objectSize := by ring
      _ ≤ (e.toNat * c.numParties + c.numParties) * c.objectSize := Nat.mul_le_mul_right _ (by omega)
      _ = (e.toNat + 1) * c.numParties * c.objectSize := by ring
      _ ≤ c.numRepetitions * c.numParties * c.objectSize := Nat.mul_le_mul_right _ (Nat.mul_le_mul_right _ he)
  have hf := h.fits
  have hcl : m.cells.length = c.data.length := by rw [h.cells]
  have h1 : (e * n * o).toNat = e.toNat * c.numParties * c.objectSize := by
    unfold RepContainer.offset at hr
    rw [BitVec.toNat_mul, BitVec.toNat_mul, h.parties, h.size, Nat.mod_mul_mod, Nat.mod_eq_of_lt (by omega)]
  have h2 : (BitVec.ofNat 64 i * o).toNat = i * c.objectSize := by
    unfold RepContainer.offset at hr
    rw [BitVec.toNat_mul, BitVec.toNat_ofNat, Nat.mod_eq_of_lt hn, h.size, Nat.mod_eq_of_lt (by omega)]
  have h0 : c.offset e.toNat i = e.toNat * c.numParties * c.objectSize + i * c.objectSize := rfl
  unfold ptrAdd
  dsimp only
  rw [h1, h2, if_pos (.inl ⟨le_rfl, by omega⟩), ok_bind, if_pos (.inl ⟨by omega, by omega⟩), ok_bind, Nat.add_assoc, ← h0]
  obtain ⟨t, g1, g2, g3⟩ := C101_make (m := m) h.notNull h.fits (c.offset e.toNat i) o (by rw [h.cells, h.size]; exact hr)
  refine ⟨t, g1, g2, g3.trans ?_⟩
  rw [RepContainer.read, h.cells, h.size]

/-- C102. Random tapes: the bytes asked for, or termination exactly if the tape is shorter. -/
theorem C102_tape {m : Mem Byte} {c : RepContainer Byte} (h : Stored m c n o) (e p start len : W64) (hr : c.offset e.toNat p.toNat + c.objectSize ≤ c.data.length) :
    (∀ bs, Loops.getBytes c e.toNat p.toNat start.toNat len.toNat = .ok bs → ∃ t, tapeSpan m n o e p start len = .ok t ∧ Inside m t ∧ view m t = bs) ∧
    (c.objectSize < start.toNat + len.toNat → tapeSpan m n o e p start len = .error .abort ∧ Loops.getBytes c e.toNat p.toNat start.toNat len.toNat = .error .abort) := by
  obtain ⟨t, h1, h2, h3⟩ := C102_get h e p hr
  have hl : (c.read e.toNat p.toNat).length = c.objectSize := by
    rw [RepContainer.read, List.length_take, List.length_drop]; omega
  unfold tapeSpan Loops.getBytes Loops.get require
  rw [if_pos (decide_eq_true hr), ok_bind, ok_bind, h1, ok_bind]
  constructor
  · intro bs hb
    by_cases hs : start.toNat + len.toNat ≤ (c.read e.toNat p.toNat).length
    · rw [if_pos (decide_eq_true hs), ok_bind] at hb
      obtain rfl := Except.ok.inj hb
      have := (C101_subspan h2 start len).1 (by rw [h3]; exact hs)
      rwa [h3] at this
    · rw [if_neg (by simpa using hs)] at hb
      exact absurd hb (by intro c; cases c)
  · intro hs
    refine ⟨(C101_subspan h2 start len).2 (by rw [h3, hl]; exact hs), ?_⟩
    rw [if_neg (by rw [decide_eq_true_iff]; omega)]
    rfl

/-- Two repetitions of three parties with two elements each. -/
example : Stored (⟨64, List.range 12⟩ : Mem Nat) ⟨List.range 12, 2, 3, 2⟩ 3 2 ∧ ((repGet (⟨64, List.range 12⟩ : Mem Nat) 3 2 1 2).map fun t => view (⟨64, List.range 12⟩ : Mem Nat) t) = .ok [10, 11] ∧
    repRead (⟨64, List.range 12⟩ : Mem Nat) 3 2 1 0 1 = .ok 7 ∧ repRead (⟨64, List.range 12⟩ : Mem Nat) 3 2 1 0 2 = .error .abort :=
  ⟨⟨by decide, by decide, rfl, rfl, rfl⟩, by decide +kernel, by decide +kernel, by decide +kernel⟩

example : ((repetitionSpans (⟨64, List.range 12⟩ : Mem Nat) 3 2 1).map fun ts => ts.map fun t => view (⟨64, List.range 12⟩ : Mem Nat) t) = .ok [[6, 7], [8, 9], [10, 11]] ∧
    ((repWrite (⟨64, List.range 6⟩ : Mem Nat) 3 2 0 1 1 100).map Mem.cells) = .ok [0, 1, 2, 100, 4, 5] := ⟨by decide +kernel, by decide +kernel⟩

/-- Without the hypothesis: one repetition too far is undefined behaviour, and a repetition near `2^63` wraps around to another slice. -/
example : (repGet (⟨64, List.range 12⟩ : Mem Nat) 3 2 2 0).map (fun _ => ()) = .error .ub ∧
    ((repGet (⟨64, List.range 12⟩ : Mem Nat) 3 2 0x8000000000000001 1).map fun t => view (⟨64, List.range 12⟩ : Mem Nat) t) = .ok [8, 9] := ⟨by decide +kernel, by decide +kernel⟩

end Banquet.Props
