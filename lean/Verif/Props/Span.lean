import Verif.Model.Span
import Verif.Proofs.View

/-! Property theorems C101: spans never reach outside. -/

namespace Banquet.Props

open Gsl

/-- C101. The array fits in memory, and the span lies in it. -/
structure Inside {α : Type} (m : Mem α) (s : Span) : Prop where
  notNull : 0 < m.base
  fits : m.base + m.cells.length < 2 ^ 64
  lower : m.base ≤ s.first_
  order : s.first_ ≤ s.last_
  upper : s.last_ ≤ m.base + m.cells.length

/-- C101. The elements that a span stands for. -/
def view {α : Type} (m : Mem α) (s : Span) : List α := (m.cells.drop (s.first_ - m.base)).take (s.last_ - s.first_)

variable {α : Type} {m : Mem α} {s : Span}

private theorem length_view (h : Inside m s) : (view m s).length = s.last_ - s.first_ := by
  have := h.lower; have := h.order; have := h.upper
  rw [view, List.length_take, List.length_drop]
  omega

private theorem toNat_size (h : Inside m s) : s.size.toNat = (view m s).length := by
  have := h.fits; have := h.lower; have := h.order; have := h.upper
  rw [length_view h, Span.size, BitVec.toNat_ofNat, Nat.mod_eq_of_lt (by omega)]

/-- C101. A span made from a pointer into the array and a number of elements that are there. -/
theorem C101_make (hb : 0 < m.base) (hf : m.base + m.cells.length < 2 ^ 64) (k : Nat) (size : W64) (hk : k + size.toNat ≤ m.cells.length) :
    ∃ t, Span.make m (m.base + k) size = .ok t ∧ Inside m t ∧ view m t = (m.cells.drop k).take size.toNat := by
  unfold Span.make expects ptrAdd
  have hc : (decide (size = 0) || (decide (size > 0) && decide (m.base + k ≠ 0))) = true := by
    by_cases h0 : size = 0
    · simp [h0]
    · have : size > 0 := by
        rw [gt_iff_lt, BitVec.lt_def]
        have : size.toNat ≠ 0 := fun c => h0 (BitVec.eq_of_toNat_eq c)
        simpa using Nat.pos_of_ne_zero this
      have hn : m.base + k ≠ 0 := by omega
      rw [decide_eq_true this, decide_eq_true hn]
      simp
  rw [if_pos hc, ok_bind, if_pos (.inl ⟨by omega, by omega⟩), ok_bind]
  refine ⟨_, rfl, ⟨hb, hf, by dsimp only; omega, by dsimp only; omega, by dsimp only; omega⟩, ?_⟩
  unfold view
  dsimp only
  rw [show m.base + k - m.base = k by omega, show m.base + k + size.toNat - (m.base + k) = size.toNat by omega]

/-- C101. The constructor cannot check the number of elements: beyond the array the behaviour is undefined. -/
theorem C101_unchecked (hb : 0 < m.base) (k : Nat) (size : W64) (hk : m.cells.length < k + size.toNat) (h0 : size ≠ 0) : Span.make m (m.base + k) size = .error .ub := by
  unfold Span.make expects ptrAdd
  have : size > 0 := by
    rw [gt_iff_lt, BitVec.lt_def]
    have : size.toNat ≠ 0 := fun c => h0 (BitVec.eq_of_toNat_eq c)
    simpa using Nat.pos_of_ne_zero this
  have hn : m.base + k ≠ 0 := by omega
  have hc : (decide (size = 0) || (decide (size > 0) && decide (m.base + k ≠ 0))) = true := by
    rw [decide_eq_true this, decide_eq_true hn]
    simp
  have hr : ¬ ((m.base ≤ m.base + k ∧ m.base + k + size.toNat ≤ m.base + m.cells.length) ∨ (m.base + k = 0 ∧ size.toNat = 0)) := by omega
  rw [if_pos hc, ok_bind, if_neg hr]
  rfl

/-- C101. From the null pointer only the empty span is made, otherwise the program terminates. -/
theorem C101_null (size : W64) : (size ≠ 0 → Span.make m 0 size = .error .abort) ∧ Span.make m 0 0 = .ok ⟨0, 0⟩ := by
  unfold Span.make expects ptrAdd
  constructor
  · intro h0
    have hc : ¬ (decide (size = 0) || (decide (size > 0) && decide ((0 : Nat) ≠ 0))) = true := by
      rw [decide_eq_false h0]
      simp
    rw [if_neg hc]
    rfl
  · simp only [decide_true, Bool.true_or, if_true, ok_bind]
    rw [if_pos (.inr ⟨trivial, rfl⟩)]
    rfl

private theorem make_part (h : Inside m s) (o : Nat) (c : W64) (hc : o + c.toNat ≤ (view m s).length) :
    ∃ t, Span.make m (s.first_ + o) c = .ok t ∧ Inside m t ∧ view m t = ((view m s).drop o).take c.toNat := by
  have h1 := h.lower; have h2 := h.order; have h3 := h.upper
  rw [length_view h] at hc
  obtain ⟨t, e, ht, hv⟩ := C101_make (m := m) h.notNull h.fits (s.first_ - m.base + o) c (by omega)
  rw [show m.base + (s.first_ - m.base + o) = s.first_ + o by omega] at e
  refine ⟨t, e, ht, hv.trans ?_⟩
  rw [view, List.drop_take, List.take_take, List.drop_drop, Nat.min_eq_left (by omega)]

private theorem add_ok (h : Inside m s) {o : Nat} (ho : o ≤ (view m s).length) : ptrAdd m s.first_ o = .ok (s.first_ + o) := by
  have h1 := h.lower; have h2 := h.order; have h3 := h.upper
  rw [length_view h] at ho
  unfold ptrAdd
  rw [if_pos (.inl ⟨h1, by omega⟩)]

private theorem expects_true : expects true = .ok () := rfl
private theorem expects_false : expects false = .error .abort := rfl
private theorem abort_bind {β γ : Type} (f : β → M γ) : ((Except.error .abort : M β) >>= f) = .error .abort := rfl

/-- C101. `first`: the part at the beginning, or termination exactly if there are not so many elements. -/
theorem C101_first (h : Inside m s) (c : W64) :
    (c.toNat ≤ (view m s).length → ∃ t, s.first m c = .ok t ∧ Inside m t ∧ view m t = (view m s).take c.toNat) ∧ ((view m s).length < c.toNat → s.first m c = .error .abort) := by
  have hs := toNat_size h
  unfold Span.first
  constructor
  · intro hc
    rw [decide_eq_true (BitVec.le_def.2 (by omega)), expects_true, ok_bind]
    have := make_part h 0 c (by omega)
    rwa [Nat.add_zero, List.drop_zero] at this
  · intro hc
    rw [decide_eq_false (by rw [BitVec.le_def]; omega), expects_false, abort_bind]

/-- C101. `last`: the part at the end. -/
theorem C101_last (h : Inside m s) (c : W64) :
    (c.toNat ≤ (view m s).length → ∃ t, s.last m c = .ok t ∧ Inside m t ∧ view m t = (view m s).drop ((view m s).length - c.toNat)) ∧ ((view m s).length < c.toNat → s.last m c = .error .abort) := by
  have hs := toNat_size h
  unfold Span.last
  constructor
  · intro hc
    have h1 := h.lower; have h2 := h.order; have h3 := h.upper
    have hl := length_view h
    rw [decide_eq_true (BitVec.le_def.2 (by omega)), expects_true, ok_bind, hs, add_ok h le_rfl, ok_bind]
    unfold ptrSub
    rw [if_pos (.inl ⟨by omega, by omega⟩), ok_bind]
    obtain ⟨t, e, ht, hv⟩ := make_part h ((view m s).length - c.toNat) c (by omega)
    rw [show s.first_ + (view m s).length - c.toNat = s.first_ + ((view m s).length - c.toNat) by omega]
    exact ⟨t, e, ht, hv.trans (List.take_of_length_le (by rw [List.length_drop]; omega))⟩
  · intro hc
    rw [decide_eq_false (by rw [BitVec.le_def]; omega), expects_false, abort_bind]

/-- C101. `subspan` with one argument: all but the first elements. -/
theorem C101_from (h : Inside m s) (o : W64) :
    (o.toNat ≤ (view m s).length → ∃ t, s.subspanFrom m o = .ok t ∧ Inside m t ∧ view m t = (view m s).drop o.toNat) ∧ ((view m s).length < o.toNat → s.subspanFrom m o = .error .abort) := by
  have hs := toNat_size h
  unfold Span.subspanFrom
  constructor
  · intro ho
    have hle : o ≤ s.size := BitVec.le_def.2 (by omega)
    have hsub : (s.size - o).toNat = (view m s).length - o.toNat := by rw [BitVec.toNat_sub_of_le hle, hs]
    rw [decide_eq_true hle, expects_true, ok_bind, add_ok h ho, ok_bind]
    obtain ⟨t, e, ht, hv⟩ := make_part h o.toNat (s.size - o) (by omega)
    exact ⟨t, e, ht, hv.trans (List.take_of_length_le (by rw [List.length_drop]; omega))⟩
  · intro ho
    rw [decide_eq_false (by rw [BitVec.le_def]; omega), expects_false, abort_bind]

/-- C101. `subspan` with two arguments: the elements from `o` to `o + c`, or termination exactly if that is too far. The sum is that of numbers: no choice of 64 bit arguments wraps around. -/
theorem C101_subspan (h : Inside m s) (o c : W64) :
    (o.toNat + c.toNat ≤ (view m s).length → ∃ t, s.subspan m o c = .ok t ∧ Inside m t ∧ view m t = ((view m s).drop o.toNat).take c.toNat) ∧
    ((view m s).length < o.toNat + c.toNat → s.subspan m o c = .error .abort) := by
  have hs := toNat_size h
  unfold Span.subspan
  constructor
  · intro ho
    have hle : o ≤ s.size := BitVec.le_def.2 (by omega)
    have hsub : (s.size - o).toNat = (view m s).length - o.toNat := by rw [BitVec.toNat_sub_of_le hle, hs]
    rw [decide_eq_true hle, decide_eq_true (BitVec.le_def.2 (by omega)), Bool.and_self, expects_true, ok_bind, add_ok h (by omega), ok_bind]
    exact make_part h o.toNat c ho
  · intro ho
    have hf : (decide (o ≤ s.size) && decide (c ≤ s.size - o)) = false := by
      by_cases hle : o ≤ s.size
      · have hsub : (s.size - o).toNat = (view m s).length - o.toNat := by rw [BitVec.toNat_sub_of_le hle, hs]
        have := BitVec.le_def.1 hle
        rw [decide_eq_false (p := c ≤ s.size - o) (by rw [BitVec.le_def]; omega), Bool.and_false]
      · rw [decide_eq_false hle, Bool.false_and]
    rw [hf, expects_false, abort_bind]

private theorem deref_view (h : Inside m s) {i : Nat} (hi : i < (view m s).length) : deref m (s.first_ + i) = .ok (view m s)[i] := by
  have h1 := h.lower; have h2 := h.order; have h3 := h.upper
  have hl := length_view h
  unfold deref
  rw [if_neg (by omega), show s.first_ + i - m.base = s.first_ - m.base + i by omega, List.getElem?_eq_getElem (by omega)]
  simp only [view, List.getElem_take, List.getElem_drop]

/-- C101. Access to an element: the element, or termination exactly if there is none. -/
theorem C101_get (h : Inside m s) (i : W64) :
    (∀ hi : i.toNat < (view m s).length, s.get m i = .ok (view m s)[i.toNat]) ∧ ((view m s).length ≤ i.toNat → s.get m i = .error .abort) ∧
    (∀ hn : view m s ≠ [], s.front m = .ok ((view m s).head hn) ∧ s.back m = .ok ((view m s).getLast hn)) ∧ (view m s = [] → s.front m = .error .abort ∧ s.back m = .error .abort) := by
  have hs := toNat_size h
  have h1 := h.lower; have h2 := h.order; have h3 := h.upper
  have hl := length_view h
  refine ⟨fun hi => ?_, fun hi => ?_, fun hn => ?_, fun hn => ?_⟩
  · unfold Span.get
    rw [decide_eq_true (BitVec.lt_def.2 (by omega)), expects_true, ok_bind, add_ok h (by omega), ok_bind, deref_view h hi]
  · unfold Span.get
    rw [decide_eq_false (by rw [BitVec.lt_def]; omega), expects_false, abort_bind]
  · have hp := List.length_pos_iff.2 hn
    unfold Span.front Span.back
    rw [decide_eq_true (by omega), expects_true, ok_bind, ok_bind]
    constructor
    · have := deref_view h (i := 0) hp
      rw [Nat.add_zero] at this
      rw [this, List.head_eq_getElem]
    · unfold ptrSub
      rw [if_pos (.inl ⟨by omega, h3⟩), ok_bind, show s.last_ - 1 = s.first_ + ((view m s).length - 1) by omega, deref_view h (by omega), List.getLast_eq_getElem]
  · rw [hn, List.length_nil] at hl
    unfold Span.front Span.back
    rw [decide_eq_false (by omega), expects_false, abort_bind, abort_bind]
    exact ⟨rfl, rfl⟩

/-- C101. Any sequence of calls with any arguments: termination, or a span in the same array that stands for a contiguous part of the first one. Never undefined behaviour. -/
theorem C101_calls (h : Inside m s) (cs : List Call) : s.calls m cs = .error .abort ∨ ∃ t, s.calls m cs = .ok t ∧ Inside m t ∧ view m t <:+: view m s := by
  have step : ∀ (s : Span) (r : M Span) (cs : List Call), (∀ t, Inside m t → t.calls m cs = .error .abort ∨ ∃ u, t.calls m cs = .ok u ∧ Inside m u ∧ view m u <:+: view m t) →
      (r = .error .abort ∨ ∃ t, r = .ok t ∧ Inside m t ∧ view m t <:+: view m s) → (r >>= fun t => t.calls m cs) = .error .abort ∨ ∃ u, (r >>= fun t => t.calls m cs) = .ok u ∧ Inside m u ∧ view m u <:+: view m s := by
    rintro s r cs ih (rfl | ⟨t, rfl, ht, hv⟩)
    · exact .inl rfl
    · rw [ok_bind]
      rcases ih t ht with e | ⟨u, e, hu, hv'⟩
      · exact .inl e
      · exact .inr ⟨u, e, hu, hv'.trans hv⟩
  induction cs generalizing s with
  | nil => exact .inr ⟨s, rfl, h, List.infix_rfl⟩
  | cons c cs ih =>
    have ih' := fun t ht => ih (s := t) ht
    cases c with
    | first c =>
      refine step s _ cs ih' ?_
      rcases Nat.lt_or_ge (view m s).length c.toNat with hc | hc
      · exact .inl ((C101_first h c).2 hc)
      · obtain ⟨t, e, ht, hv⟩ := (C101_first h c).1 hc
        exact .inr ⟨t, e, ht, by rw [hv]; exact (List.take_prefix _ _).isInfix⟩
    | last c =>
      refine step s _ cs ih' ?_
      rcases Nat.lt_or_ge (view m s).length c.toNat with hc | hc
      · exact .inl ((C101_last h c).2 hc)
      · obtain ⟨t, e, ht, hv⟩ := (C101_last h c).1 hc
        exact .inr ⟨t, e, ht, by rw [hv]; exact (List.drop_suffix _ _).isInfix⟩
    | subspanFrom o =>
      refine step s _ cs ih' ?_
      rcases Nat.lt_or_ge (view m s).length o.toNat with hc | hc
      · exact .inl ((C101_from h o).2 hc)
      · obtain ⟨t, e, ht, hv⟩ := (C101_from h o).1 hc
        exact .inr ⟨t, e, ht, by rw [hv]; exact (List.drop_suffix _ _).isInfix⟩
    | subspan o c =>
      refine step s _ cs ih' ?_
      rcases Nat.lt_or_ge (view m s).length (o.toNat + c.toNat) with hc | hc
      · exact .inl ((C101_subspan h o c).2 hc)
      · obtain ⟨t, e, ht, hv⟩ := (C101_subspan h o c).1 hc
        exact .inr ⟨t, e, ht, by rw [hv]; exact (List.take_prefix _ _).isInfix.trans (List.drop_suffix _ _).isInfix⟩

/-- A span of four of six elements: a part, an element, and arguments whose sum wraps around. -/
example : Inside (⟨100, [10, 11, 12, 13, 14, 15]⟩ : Mem Nat) ⟨101, 105⟩ ∧ view (⟨100, [10, 11, 12, 13, 14, 15]⟩ : Mem Nat) ⟨101, 105⟩ = [11, 12, 13, 14] ∧
    ((Span.subspan (⟨100, [10, 11, 12, 13, 14, 15]⟩ : Mem Nat) ⟨101, 105⟩ 1 2).map fun t => (t.first_, t.last_)) = .ok (102, 104) ∧
    Span.get (⟨100, [10, 11, 12, 13, 14, 15]⟩ : Mem Nat) ⟨101, 105⟩ 3 = .ok 14 ∧ Span.get (⟨100, [10, 11, 12, 13, 14, 15]⟩ : Mem Nat) ⟨101, 105⟩ 4 = .error .abort ∧
    ((Span.subspan (⟨100, [10, 11, 12, 13, 14, 15]⟩ : Mem Nat) ⟨101, 105⟩ 2 0xffffffffffffffff).map fun t => t.first_) = .error .abort :=
  ⟨⟨by decide, by decide, by decide, by decide, by decide⟩, by decide, by decide +kernel, by decide +kernel, by decide +kernel, by decide +kernel⟩

end Banquet.Props
