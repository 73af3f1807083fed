import Verif.Proofs.Reduce
import Mathlib.RingTheory.AdjoinRoot
import Batteries.Data.BitVec.Lemmas
import Mathlib.GroupTheory.OrderOfElement
import Mathlib.RingTheory.Ideal.Quotient.Basic
import Mathlib.Tactic.NormNum.Prime

namespace Banquet

open Polynomial Spec

/-- Square-and-multiply with the word operations. -/
def powW (R : W128 → W64) (g : W64) : Nat → Nat → W64
  | 0, _ => 1
  | f + 1, e =>
    let s := powW R g f (e / 2)
    let s2 := R (clmul s s)
    if e % 2 = 1 then R (clmul s2 g) else s2

section
variable {n : Nat} {p : W64} {R : W128 → W64}

/-- Residue class of a word. -/
noncomputable def wcls (p : W64) (w : W64) : AdjoinRoot (wordPoly p) := AdjoinRoot.mk (wordPoly p) (wordPoly w)

theorem wcls_xor (a b : W64) : wcls p (a ^^^ b) = wcls p a + wcls p b := by
  simp [wcls, wordPoly_xor]

theorem wcls_zero : wcls p 0 = 0 := by simp only [wcls, wordPoly_zero, map_zero]

theorem wcls_one : wcls p 1 = 1 := by
  rw [wcls, show (1 : W64) = 1#64 from rfl, wordPoly_one (by norm_num), map_one]

theorem wcls_mul (h : ReduceOk n p R) {a b : W64} (ha : a.toNat < 2 ^ n) (hb : b.toNat < 2 ^ n) :
    wcls p (R (clmul a b)) = wcls p a * wcls p b := by
  unfold wcls
  rw [← map_mul, AdjoinRoot.mk_eq_mk]
  exact h.mul_dvd ha hb

theorem wcls_pow (h : ReduceOk n p R) {g : W64} (hg : g.toNat < 2 ^ n) (f e : Nat) (he : e < 2 ^ f) :
    (powW R g f e).toNat < 2 ^ n ∧ wcls p (powW R g f e) = wcls p g ^ e := by
  induction f generalizing e with
  | zero =>
    have : e = 0 := by omega
    subst this
    refine ⟨?_, by rw [powW, wcls_one, pow_zero]⟩
    exact Nat.one_lt_two_pow (by have := h.npos; omega)
  | succ f ih =>
    obtain ⟨h1, h2⟩ := ih (e / 2) (by rw [pow_succ] at he; omega)
    simp only [powW]
    generalize powW R g f (e / 2) = s at h1 h2
    have h3 : wcls p (R (clmul s s)) = wcls p g ^ (2 * (e / 2)) := by
      rw [wcls_mul h h1 h1, h2, ← pow_add]; congr 1; omega
    split
    · refine ⟨h.lt _, ?_⟩
      rw [wcls_mul h (h.lt _) hg, h3, ← pow_succ]
      congr 1; omega
    · refine ⟨h.lt _, ?_⟩
      rw [h3]; congr 1; omega

variable (hm : (wordPoly p).Monic) (hd : (wordPoly p).natDegree = n)
include hm hd

theorem degree_modulus : (wordPoly p).degree = n := by
  rw [degree_eq_natDegree hm.ne_zero, hd]

theorem wcls_inj {a b : W64} (ha : a.toNat < 2 ^ n) (hb : b.toNat < 2 ^ n) (h : wcls p a = wcls p b) : a = b := by
  rw [wcls, wcls, AdjoinRoot.mk_eq_mk] at h
  rw [← degree_wordPoly_lt] at ha hb
  have : wordPoly a - wordPoly b = 0 := by
    apply eq_zero_of_dvd_of_degree_lt h
    rw [degree_modulus hm hd]
    exact lt_of_le_of_lt (degree_sub_le _ _) (max_lt ha hb)
  exact wordPoly_injective (sub_eq_zero.1 this)

theorem mod_of_dvd {w : W64} (hw : w.toNat < 2 ^ n) {q : (ZMod 2)[X]} (h : wordPoly p ∣ wordPoly w - q) : wordPoly w = q %ₘ wordPoly p := by
  obtain ⟨c, hc⟩ := h
  refine (div_modByMonic_unique (-c) (wordPoly w) hm ⟨?_, ?_⟩).2.symm
  · rw [mul_neg, ← hc]; ring
  · rw [degree_modulus hm hd]; exact (degree_wordPoly_lt w n).2 hw

omit hm hd in
theorem exists_word (q : (ZMod 2)[X]) (hn : n ≤ 64) (hq : q.degree < n) : ∃ w : W64, w.toNat < 2 ^ n ∧ wordPoly w = q := by
  refine ⟨BitVec.ofFnLE fun i : Fin 64 => decide (q.coeff i ≠ 0), ?_⟩
  have key : wordPoly (BitVec.ofFnLE fun i : Fin 64 => decide (q.coeff i ≠ 0)) = q := by
    ext i
    rw [coeff_wordPoly]
    by_cases hi : i < 64
    · rw [BitVec.getLsbD_ofFnLE]
      have : ∀ z : ZMod 2, (if decide (z ≠ 0) = true then (1 : ZMod 2) else 0) = z := by decide
      simpa [hi] using this (q.coeff i)
    · rw [BitVec.getLsbD_of_ge _ _ (by omega), coeff_eq_zero_of_degree_lt (lt_of_lt_of_le hq (by exact_mod_cast (by omega : n ≤ i)))]
      simp
  exact ⟨(degree_wordPoly_lt _ _).1 (by rw [key]; exact hq), key⟩

theorem wcls_surj (hn : n ≤ 64) (k : AdjoinRoot (wordPoly p)) : ∃ w : W64, w.toNat < 2 ^ n ∧ wcls p w = k := by
  obtain ⟨q, rfl⟩ := AdjoinRoot.mk_surjective k
  obtain ⟨w, hw, h⟩ := exists_word (n := n) (q %ₘ wordPoly p) hn (by rw [← degree_modulus hm hd]; exact degree_modByMonic_lt _ hm)
  refine ⟨w, hw, ?_⟩
  rw [wcls, h, AdjoinRoot.mk_eq_mk]
  refine ⟨-(q /ₘ wordPoly p), ?_⟩
  have := modByMonic_add_div q (wordPoly p)
  calc q %ₘ wordPoly p - q = q %ₘ wordPoly p - (q %ₘ wordPoly p + wordPoly p * (q /ₘ wordPoly p)) := by rw [this]
    _ = _ := by ring

/-- An element of order `2^n - 1` makes the residue ring a field. -/
theorem irreducible_of_order (hn0 : 0 < n) (hn : n ≤ 64) {g : W64} (ho : orderOf (wcls p g) = 2 ^ n - 1) : Irreducible (wordPoly p) := by
  have hnt : Nontrivial (AdjoinRoot (wordPoly p)) := by
    apply AdjoinRoot.nontrivial
    rw [degree_modulus hm hd]
    exact_mod_cast hn0.ne'
  have hpos : 0 < 2 ^ n - 1 := by
    have := Nat.one_lt_two_pow (n := n) (by omega)
    omega
  have hone : wcls p g ^ (2 ^ n - 1) = 1 := by rw [← ho]; exact pow_orderOf_eq_one _
  have hunit : IsUnit (wcls p g) := IsUnit.of_pow_eq_one hone hpos.ne'
  let s : Fin (2 ^ n) → AdjoinRoot (wordPoly p) := fun i => wcls p (BitVec.ofNat 64 i.val)
  have hs : Function.Surjective s := by
    intro k
    obtain ⟨w, hw, h⟩ := wcls_surj hm hd hn k
    refine ⟨⟨w.toNat, hw⟩, ?_⟩
    show wcls p (BitVec.ofNat 64 w.toNat) = k
    rw [BitVec.ofNat_toNat, BitVec.setWidth_eq]; exact h
  have hfin : Finite (AdjoinRoot (wordPoly p)) := Finite.of_surjective s hs
  have hcard : Nat.card (AdjoinRoot (wordPoly p)) ≤ 2 ^ n := by
    have := Nat.card_le_card_of_surjective s hs
    simpa using this
  let t : Option (Fin (2 ^ n - 1)) → AdjoinRoot (wordPoly p) := fun o => o.elim 0 (fun i => wcls p g ^ i.val)
  have ht : Function.Injective t := by
    intro a b hab
    rcases a with _ | a <;> rcases b with _ | b
    · rfl
    · exact absurd hab.symm (hunit.pow _).ne_zero
    · exact absurd hab (hunit.pow _).ne_zero
    · have := pow_injOn_Iio_orderOf (x := wcls p g) (by rw [ho]; exact a.isLt) (by rw [ho]; exact b.isLt) hab
      exact congrArg some (Fin.ext this)
  have hbij := ht.bijective_of_nat_card_le (by rw [Nat.card_eq_fintype_card (α := Option _), Fintype.card_option, Fintype.card_fin]; omega)
  have hu : ∀ a : AdjoinRoot (wordPoly p), a ≠ 0 → IsUnit a := by
    intro a ha
    obtain ⟨o, rfl⟩ := hbij.2 a
    rcases o with _ | i
    · exact absurd rfl ha
    · exact hunit.pow _
  have hf : IsField (AdjoinRoot (wordPoly p)) :=
    ⟨⟨0, 1, zero_ne_one⟩, mul_comm, fun {a} ha => ⟨_, (hu a ha).mul_val_inv⟩⟩
  have hmax := Ideal.Quotient.maximal_of_isField _ hf
  exact ((Ideal.span_singleton_prime hm.ne_zero).1 hmax.isPrime).irreducible

end

/-- Certificate for `irreducible_of_order`: `g^N = 1` and `g^(N/q) ≠ 1` for the prime factors `q` of `N`. -/
theorem orderOf_wcls {n : Nat} {p : W64} {R : W128 → W64} (h : ReduceOk n p R) (hm : (wordPoly p).Monic) (hd : (wordPoly p).natDegree = n)
    {g : W64} (hg : g.toNat < 2 ^ n) (N : Nat) (hN : N < 2 ^ n) (hN0 : 0 < N) (qs : List Nat) (hq : ∀ q ∈ qs, q.Prime) (hdvd : N ∣ qs.prod)
    (hone : powW R g n N = 1) (hne : ∀ q ∈ qs, powW R g n (N / q) ≠ 1) : orderOf (wcls p g) = N := by
  apply orderOf_eq_of_pow_and_pow_div_prime hN0
  · rw [← (wcls_pow h hg n N hN).2, hone, wcls_one]
  · intro q hqp hqN
    have hqm : q ∈ qs := by
      have h1 : q ∣ qs.prod := hqN.trans hdvd
      obtain ⟨r, hr, hqr⟩ := (Nat.Prime.prime hqp).dvd_prod_iff.1 h1
      rwa [(Nat.prime_dvd_prime_iff_eq hqp (hq r hr)).1 hqr]
    have hlt : N / q < 2 ^ n := lt_of_le_of_lt (Nat.div_le_self _ _) hN
    obtain ⟨h1, h2⟩ := wcls_pow h hg n (N / q) hlt
    intro hc
    apply hne q hqm
    refine wcls_inj hm hd h1 (b := 1) (Nat.one_lt_two_pow h.npos.ne') ?_
    rw [h2, hc, wcls_one]

end Banquet
