import Verif.Proofs.AesSbox
import Verif.Proofs.Interp
import Verif.Proofs.Lift
import Verif.Proofs.AesByte
import Verif.Proofs.Misc
import Verif.Spec.Aes
import Verif.Model.Banquet

/-! Property theorems C01 to C09, C42, C43, C44: arithmetic. -/

namespace Banquet.Props

open Polynomial Spec

/-! ### C01 -/

/-- C01. Multiplication: the result is the canonical representative of the product modulo the published polynomial. -/
theorem C01_mul {lam : Nat} {F : FieldState} (h : initExtensionField lam = .ok F) (a b : W64) (ha : Reduced lam a) (hb : Reduced lam b) :
    Reduced lam (F.mul a b) ∧ wordPoly (F.mul a b) = (wordPoly a * wordPoly b) %ₘ fieldPoly lam := by
  obtain ⟨hF, rfl, _⟩ := initExtensionField_ok h
  refine ⟨FieldOk.reduced_mul _ _, ?_⟩
  have hv := FieldOk.val_mul (F := F) ha hb
  have hm : AdjoinRoot.mk (fieldPoly F.byteSize) (wordPoly (F.mul a b)) = AdjoinRoot.mk (fieldPoly F.byteSize) (wordPoly a * wordPoly b) := by
    rw [map_mul]; exact hv
  rw [AdjoinRoot.mk_eq_mk] at hm
  have hd : (wordPoly (F.mul a b)).degree < (fieldPoly F.byteSize).degree := by
    rw [FieldOk.degree_eq (F := F)]
    exact (degree_wordPoly_lt _ _).2 (FieldOk.reduced_mul a b)
  obtain ⟨c, hc⟩ := hm
  refine (div_modByMonic_unique (-c) _ hF.monic ⟨?_, hd⟩).2.symm
  rw [mul_neg, ← hc]; ring

/-- C01. Addition and subtraction are polynomial addition. -/
theorem C01_add {lam : Nat} (a b : W64) (ha : Reduced lam a) (hb : Reduced lam b) :
    Reduced lam (gfAdd a b) ∧ wordPoly (gfAdd a b) = wordPoly a + wordPoly b ∧ wordPoly (gfAdd a b) = wordPoly a - wordPoly b := by
  refine ⟨?_, wordPoly_xor a b, ?_⟩
  · unfold Reduced at *
    rw [gfAdd, BitVec.toNat_xor]
    exact Nat.xor_lt_two_pow ha hb
  · rw [CharTwo.sub_eq_add]; exact wordPoly_xor a b

/-- Concrete cases for C01: a product that needs reduction in every field. -/
example : ((initExtensionField 2).toOption.map fun F => F.mul 0x8000 0x8000) = some 0xc10e := by decide +kernel
example : ((initExtensionField 4).toOption.map fun F => F.mul 0x80000000 0x80000000) = some 0x40001037 := by decide +kernel
example : ((initExtensionField 5).toOption.map fun F => F.mul 0x8000000000 2) = some 0x39 := by decide +kernel
example : ((initExtensionField 6).toOption.map fun F => F.mul 0x800000000000 2) = some 0x2d := by decide +kernel
example : Reduced 2 (0x8000#64) := by unfold Reduced; decide

/-! ### C02 -/

/-- C02. The moduli are irreducible, and the reduced words with the code's operations are a copy of the field with that modulus: the value map is a
bijection which turns `+` and `*` into the field operations. -/
theorem C02_field {lam : Nat} {F : FieldState} (h : initExtensionField lam = .ok F) :
    Irreducible (fieldPoly lam) ∧
    (∀ a b : W64, Reduced lam a → Reduced lam b → (val lam a = val lam b ↔ a = b)) ∧
    (∀ k : GF lam, ∃ a : W64, Reduced lam a ∧ val lam a = k) ∧
    (∀ a b : W64, Reduced lam a → Reduced lam b → val lam (F.mul a b) = val lam a * val lam b ∧ val lam (gfAdd a b) = val lam a + val lam b) ∧
    val lam (0 : W64) = 0 ∧ val lam (1 : W64) = 1 := by
  obtain ⟨hF, rfl, _⟩ := initExtensionField_ok h
  refine ⟨hF.irreducible, fun a b ha hb => ⟨FieldOk.val_inj ha hb, fun e => e ▸ rfl⟩, FieldOk.val_surj, fun a b ha hb => ⟨FieldOk.val_mul ha hb, FieldOk.val_add a b⟩,
    FieldOk.val_zero, FieldOk.val_one⟩

/-- C02. The field laws directly on the words. -/
theorem C02_laws {lam : Nat} {F : FieldState} (h : initExtensionField lam = .ok F) (a b c : W64) (ha : Reduced lam a) (hb : Reduced lam b) (hc : Reduced lam c) :
    F.mul a b = F.mul b a ∧ F.mul (F.mul a b) c = F.mul a (F.mul b c) ∧ F.mul a (gfAdd b c) = gfAdd (F.mul a b) (F.mul a c) ∧
    F.mul a 1 = a ∧ F.mul a 0 = 0 ∧ gfAdd a b = gfAdd b a ∧ gfAdd (gfAdd a b) c = gfAdd a (gfAdd b c) ∧ gfAdd a 0 = a ∧ gfAdd a a = 0 ∧
    (F.mul a b = 0 → a = 0 ∨ b = 0) ∧ (a ≠ 0 → ∃ i, Reduced lam i ∧ F.mul a i = 1) := by
  obtain ⟨hF, rfl, _⟩ := initExtensionField_ok h
  have inj : ∀ {x y : W64}, Reduced F.byteSize x → Reduced F.byteSize y → val F.byteSize x = val F.byteSize y → x = y := fun hx hy => FieldOk.val_inj hx hy
  have hm : ∀ x y : W64, Reduced F.byteSize (F.mul x y) := fun x y => FieldOk.reduced_mul x y
  have h1 : Reduced F.byteSize (1 : W64) := FieldOk.reduced_one
  have h0 : Reduced F.byteSize (0 : W64) := FieldOk.reduced_zero
  have hbc : Reduced F.byteSize (gfAdd b c) := FieldOk.reduced_add hb hc
  refine ⟨?_, ?_, ?_, ?_, ?_, BitVec.xor_comm _ _, BitVec.xor_assoc _ _ _, BitVec.xor_zero, BitVec.xor_self, ?_, ?_⟩
  · exact inj (hm _ _) (hm _ _) (by rw [FieldOk.val_mul ha hb, FieldOk.val_mul hb ha, mul_comm])
  · exact inj (hm _ _) (hm _ _) (by rw [FieldOk.val_mul (hm _ _) hc, FieldOk.val_mul ha hb, FieldOk.val_mul ha (hm _ _), FieldOk.val_mul hb hc, mul_assoc])
  · exact inj (hm _ _) (FieldOk.reduced_add (hm _ _) (hm _ _))
      (by rw [FieldOk.val_mul ha hbc, FieldOk.val_add, FieldOk.val_add, FieldOk.val_mul ha hb, FieldOk.val_mul ha hc, mul_add])
  · exact inj (hm _ _) ha (by rw [FieldOk.val_mul ha h1, FieldOk.val_one, mul_one])
  · exact inj (hm _ _) h0 (by rw [FieldOk.val_mul ha h0, FieldOk.val_zero, mul_zero])
  · intro hz
    have := FieldOk.val_mul (F := F) ha hb
    rw [hz, FieldOk.val_zero] at this
    rcases mul_eq_zero.1 this.symm with h | h
    · exact Or.inl ((FieldOk.val_eq_zero ha).1 h)
    · exact Or.inr ((FieldOk.val_eq_zero hb).1 h)
  · intro hne
    refine ⟨F.inverse a, FieldOk.reduced_inverseZ _ ha, inj (hm _ _) h1 ?_⟩
    rw [FieldState.inverse, FieldOk.val_mul ha (FieldOk.reduced_inverseZ _ ha), FieldOk.val_inverseZ _ ha, FieldOk.val_one, mul_inv_cancel₀]
    exact fun hc => hne ((FieldOk.val_eq_zero ha).1 hc)

example : ∃ F, initExtensionField 5 = .ok F ∧ Reduced 5 (0xabcdef1234#64) := ⟨_, rfl, by unfold Reduced; decide⟩

/-! ### C03 -/

/-- C03. Inversion terminates (within the iterations given to the loops in the model), gives the inverse, maps 0 to 0, and the value `z` returned by
`__builtin_clzl(0)` does not matter. -/
theorem C03_inverse {lam : Nat} {F : FieldState} (h : initExtensionField lam = .ok F) (a : W64) (ha : Reduced lam a) :
    ∃ i : W64, Reduced lam i ∧ (∀ z, modInverse z a F.modulus = some i) ∧ (∀ z, F.inverseZ z a = i) ∧ F.inverse a = i ∧
      (a ≠ 0 → F.mul a i = 1) ∧ (a = 0 → i = 0) := by
  obtain ⟨hF, rfl, _⟩ := initExtensionField_ok h
  obtain ⟨s, h1, h2, h3⟩ := FieldOk.modInverse_some (F := F) a ha
  have hz : ∀ z, F.inverseZ z a = s := fun z => by unfold FieldState.inverseZ; rw [h1 z]; rfl
  refine ⟨s, h2, h1, hz, hz 64, ?_, ?_⟩
  · intro hne
    apply FieldOk.val_inj (F := F) (FieldOk.reduced_mul _ _) FieldOk.reduced_one
    rw [FieldOk.val_mul ha h2, h3, FieldOk.val_one, mul_inv_cancel₀]
    exact fun hc => hne ((FieldOk.val_eq_zero ha).1 hc)
  · rintro rfl
    rw [FieldOk.val_zero, inv_zero] at h3
    exact (FieldOk.val_eq_zero h2).1 h3

/-- The modulus stored in the globals is the published polynomial. -/
theorem C03_modulus {lam : Nat} {F : FieldState} (h : initExtensionField lam = .ok F) : wordPoly F.modulus = fieldPoly lam := by
  obtain ⟨hF, rfl, _⟩ := initExtensionField_ok h
  exact hF.modulus

example : ((initExtensionField 4).toOption.map fun F => (F.inverseZ 7 0x12345678, F.mul 0x12345678 (F.inverseZ 7 0x12345678))) = some (0x71c317d, 1) := by decide +kernel

/-! ### C04 -/

/-- C04. Lifting is an injective ring homomorphism from the AES field. -/
theorem C04_lift {lam : Nat} {F : FieldState} (h : initExtensionField lam = .ok F) (a b : Byte) :
    Reduced lam (F.lift a) ∧ F.lift (a ^^^ b) = gfAdd (F.lift a) (F.lift b) ∧ F.lift (aesMul a b) = F.mul (F.lift a) (F.lift b) ∧
    F.lift 1 = 1 ∧ F.lift 0 = 0 ∧ (F.lift a = F.lift b → a = b) := by
  obtain ⟨hF, rfl, _⟩ := initExtensionField_ok h
  exact ⟨reduced_lift a, lift_xor a b, lift_mul a b, lift_one, lift_zero, lift_inj⟩

/-- C04. The lifting sends the generator of the byte field to the published root of the AES polynomial. -/
theorem C04_value {lam : Nat} {F : FieldState} (h : initExtensionField lam = .ok F) (b : Byte) : val lam (F.lift b) = liftVal lam b := by
  obtain ⟨_, hb, _⟩ := initExtensionField_ok h
  rw [← hb]
  exact val_lift b

/-- C04, independent of the model's byte multiplication: a product of bytes modulo the AES polynomial is lifted to the product modulo the field polynomial. -/
theorem C04_lift_poly {lam : Nat} {F : FieldState} (h : initExtensionField lam = .ok F) (a b c : Byte)
    (hc : wordPoly c = (wordPoly a * wordPoly b) %ₘ aesPoly) :
    wordPoly (F.lift c) = (wordPoly (F.lift a) * wordPoly (F.lift b)) %ₘ fieldPoly lam := by
  have e : c = aesMul a b := wordPoly_injective (hc.trans (aesMul_spec a b).symm)
  rw [e, (C04_lift h a b).2.2.1]
  exact (C01_mul h _ _ (C04_lift h a b).1 (C04_lift h b a).1).2

example : ((initExtensionField 6).toOption.map fun F => (F.mul (F.lift 0x57) (F.lift 0x83), F.lift 0xc1)) = some (0x95f71741b7a9, 0x95f71741b7a9) ∧
    aesMul 0x57 0x83 = 0xc1 := by decide +kernel

/-! ### C05 -/

/-- C05. Interpolation returns the unique polynomial of degree below `n` through the points. -/
theorem C05_interpolate {lam : Nat} {F : FieldState} (h : initExtensionField lam = .ok F) (xs ys : List W64) (hlen : xs.length = ys.length) (hn : 1 ≤ xs.length)
    (hx : ∀ x ∈ xs, Reduced lam x) (hy : ∀ y ∈ ys, Reduced lam y) (hd : xs.Nodup) :
    ∃ p, F.interpolate (F.precomputeLagrange xs) ys = .ok p ∧ p.length = xs.length ∧ (∀ c ∈ p, Reduced lam c) ∧
      (∀ (i : Nat) (x y : W64), xs[i]? = some x → ys[i]? = some y → F.eval p x = y) ∧
      (∀ q : (GF lam)[X], q.degree < xs.length → (∀ (i : Nat) (x y : W64), xs[i]? = some x → ys[i]? = some y → q.eval (val lam x) = val lam y) → q = coeffPoly lam p) := by
  obtain ⟨hF, rfl, _⟩ := initExtensionField_ok h
  obtain ⟨p, h1, h2, h3, h4⟩ := interpolate_eval (F := F) (xs := xs) (ys := ys) hx hy hd hlen (by rintro rfl; rw [List.length_nil] at hlen; omega)
  have key : ∀ (i : Nat) (x y : W64), xs[i]? = some x → ys[i]? = some y → (coeffPoly F.byteSize p).eval (val F.byteSize x) = val F.byteSize y := by
    intro i x y hxi hyi
    obtain ⟨hi, rfl⟩ := List.getElem?_eq_some_iff.1 hxi
    obtain ⟨hi', rfl⟩ := List.getElem?_eq_some_iff.1 hyi
    have := h4 i hi
    rwa [getD_of_lt hi, getD_of_lt hi'] at this
  refine ⟨p, h1, h2, h3, ?_, ?_⟩
  · intro i x y hxi hyi
    apply FieldOk.val_inj (F := F) (reduced_eval p x h3) (hy _ (List.mem_of_getElem? hyi))
    rw [val_eval p x h3 (hx _ (List.mem_of_getElem? hxi))]
    exact key i x y hxi hyi
  · intro q hq hqe
    apply Polynomial.eq_of_degrees_lt_of_eval_index_eq (s := Finset.range xs.length) (v := fun i => val F.byteSize (xs.getD i 0))
    · intro i hi j hj hij
      have hi' : i < xs.length := by simpa using hi
      have hj' : j < xs.length := by simpa using hj
      have := FieldOk.val_inj (F := F) (AllRed.getD hx i) (AllRed.getD hx j) hij
      rw [getD_of_lt hi', getD_of_lt hj'] at this
      exact (List.Nodup.getElem_inj_iff hd).1 this
    · rw [Finset.card_range]; exact hq
    · rw [Finset.card_range, ← h2]; exact degree_coeffPoly_lt p
    · intro i hi
      have hi' : i < xs.length := Finset.mem_range.1 hi
      have e1 : xs[i]? = some (xs.getD i 0) := getElem?_getD i hi'
      have e2 : ys[i]? = some (ys.getD i 0) := getElem?_getD i (hlen ▸ hi')
      rw [hqe i _ _ e1 e2, key i _ _ e1 e2]

example : ((initExtensionField 4).toOption.map fun F => (F.interpolate (F.precomputeLagrange [2, 4, 8]) [7, 0, 9]).toOption)
    = some (some [0x999999d6, 0x1555555e, 0x6cccccf8]) := by decide +kernel

/-! ### C06 -/

/-- C06. `eval` is polynomial evaluation. -/
theorem C06_eval {lam : Nat} {F : FieldState} (h : initExtensionField lam = .ok F) (p : List W64) (x : W64) (hp : ∀ c ∈ p, Reduced lam c) (hx : Reduced lam x) :
    Reduced lam (F.eval p x) ∧ val lam (F.eval p x) = (coeffPoly lam p).eval (val lam x) := by
  obtain ⟨hF, rfl, _⟩ := initExtensionField_ok h
  exact ⟨reduced_eval p x hp, val_eval p x hp hx⟩

/-- C06. Vector addition is pointwise and throws exactly on different sizes. -/
theorem C06_add (a b : List W64) :
    (a.length ≠ b.length → vecAdd a b = .error .thrown) ∧
    (a.length = b.length → ∃ r, vecAdd a b = .ok r ∧ r.length = a.length ∧
      ∀ (i : Nat) (x y : W64), a[i]? = some x → b[i]? = some y → r[i]? = some (x ^^^ y)) := by
  constructor
  · intro h; rw [vecAdd, if_pos h]
  · intro h
    refine ⟨List.zipWith gfAdd a b, by rw [vecAdd, if_neg (not_not.2 h)], by simp [h], ?_⟩
    intro i x y hx hy
    rw [List.getElem?_zipWith, hx, hy]; rfl

/-- C06. The product with a scalar is the product with a constant, in every entry. -/
theorem C06_scale {lam : Nat} {F : FieldState} (h : initExtensionField lam = .ok F) (a : List W64) (s : W64) (ha : ∀ c ∈ a, Reduced lam c) (hs : Reduced lam s) :
    (F.vecScale a s).length = a.length ∧ (∀ c ∈ F.vecScale a s, Reduced lam c) ∧ (∀ (i : Nat) (x : W64), a[i]? = some x → (F.vecScale a s)[i]? = some (F.mul x s)) ∧
    coeffPoly lam (F.vecScale a s) = coeffPoly lam a * C (val lam s) := by
  obtain ⟨hF, rfl, _⟩ := initExtensionField_ok h
  refine ⟨by simp [FieldState.vecScale], allRed_vecScale a s, fun i x hx => ?_, coeffPoly_vecScale ha hs⟩
  rw [FieldState.vecScale, List.getElem?_map, hx]
  rfl

/-- `X * [1, X]` modulo `x^16 + x^5 + x^3 + x + 1`. -/
example : ((initExtensionField 2).map fun F => F.vecScale [1, 2, 0x8000] 2) = .ok [2, 4, 0x2b] := by decide +kernel

/-- C06. The product of coefficient vectors is the polynomial product, of size `n + m - 1`. -/
theorem C06_mul {lam : Nat} {F : FieldState} (h : initExtensionField lam = .ok F) (a b : List W64) (ha : ∀ c ∈ a, Reduced lam c) (hb : ∀ c ∈ b, Reduced lam c)
    (hne : a.length + b.length ≠ 0) :
    ∃ r, F.polyMul a b = .ok r ∧ r.length = a.length + b.length - 1 ∧ (∀ c ∈ r, Reduced lam c) ∧ coeffPoly lam r = coeffPoly lam a * coeffPoly lam b := by
  obtain ⟨hF, rfl, _⟩ := initExtensionField_ok h
  exact polyMul_ok ha hb hne

/-- C06. `build_from_roots` is the monic product of `X - r`. -/
theorem C06_roots {lam : Nat} {F : FieldState} (h : initExtensionField lam = .ok F) (rs : List W64) (hr : ∀ c ∈ rs, Reduced lam c) :
    (F.buildFromRoots rs).length = rs.length + 1 ∧ (∀ c ∈ F.buildFromRoots rs, Reduced lam c) ∧
    coeffPoly lam (F.buildFromRoots rs) = (rs.map fun r => X - C (val lam r)).prod := by
  obtain ⟨hF, rfl, _⟩ := initExtensionField_ok h
  exact buildFromRoots_ok rs hr

/-- C06. `dot_product` is the sum of the products and throws exactly on different sizes. -/
theorem C06_dot {lam : Nat} {F : FieldState} (h : initExtensionField lam = .ok F) (a b : List W64) (ha : ∀ c ∈ a, Reduced lam c) (hb : ∀ c ∈ b, Reduced lam c) :
    (a.length ≠ b.length → F.dot a b = .error .thrown) ∧
    (a.length = b.length → ∃ r, F.dot a b = .ok r ∧ Reduced lam r ∧ val lam r = (List.zipWith (fun x y => val lam x * val lam y) a b).sum) := by
  obtain ⟨hF, rfl, _⟩ := initExtensionField_ok h
  constructor
  · intro h; rw [FieldState.dot, if_pos h]
  · intro hl
    obtain ⟨r, h1, h2, h3⟩ := dot_ok (F := F) hl
    exact ⟨r, h1, h2, h3 ha hb⟩

example : ((initExtensionField 2).toOption.map fun F => ((F.polyMul [3, 0x8000] [1, 2]).toOption, F.buildFromRoots [5, 7, 11], (F.dot [0x8001, 3] [2, 0x4000]).toOption))
    = some (some [3, 0x8006, 0x2b], [0xf5, 0xd, 9, 1], some 0xc029) := by decide +kernel

/-! ### C07 -/

/-- C07. Multiplicative order of `x` per field. -/
def orderX : Nat → Nat
  | 2 => 21845
  | 4 => 1431655765
  | 5 => 1099511627775
  | 6 => 6254999482459
  | _ => 0

/-- C07. The order of `x` in the four fields. -/
theorem C07_order {lam : Nat} (h : Supported lam) : orderOf (val lam (2 : W64)) = orderX lam := by
  rcases h with rfl | rfl | rfl | rfl
  · rw [orderOf_val wordPoly_mod2, order_x2]; rfl
  · rw [orderOf_val wordPoly_mod4, order_x4]; rfl
  · rw [orderOf_val wordPoly_mod5, order_x5]; rfl
  · rw [orderOf_val wordPoly_mod6, order_x6]; rfl

/-- C07. The interpolation points are the powers `x^1, …, x^n`, nonzero and pairwise distinct up to the order of `x`. -/
theorem C07_points {lam : Nat} {F : FieldState} (h : initExtensionField lam = .ok F) (n : Nat) :
    (F.firstN n).length = n ∧ (∀ x ∈ F.firstN n, Reduced lam x ∧ x ≠ 0) ∧
    (∀ (i : Nat) (x : W64), (F.firstN n)[i]? = some x → val lam x = AdjoinRoot.root (fieldPoly lam) ^ (i + 1)) ∧
    (n ≤ orderX lam → (F.firstN n).Nodup) := by
  obtain ⟨hF, rfl, hs⟩ := initExtensionField_ok h
  have hroot : val F.byteSize (2 : W64) = AdjoinRoot.root (fieldPoly F.byteSize) := by
    rw [val, show (2 : W64) = 1#64 <<< 1 from rfl, wordPoly_twoPow 1 (by norm_num), pow_one, AdjoinRoot.mk_X]
  have hval : ∀ (i : Nat) (x : W64), (F.firstN n)[i]? = some x → val F.byteSize x = AdjoinRoot.root (fieldPoly F.byteSize) ^ (i + 1) := by
    intro i x hx
    have hi : i < n := by have := (List.getElem?_eq_some_iff.1 hx).1; rwa [length_firstN] at this
    rw [firstN_eq, List.getElem?_map, List.getElem?_range hi] at hx
    obtain rfl := Option.some.inj hx
    rw [(val_iter i).2, hroot]
  refine ⟨length_firstN n, ?_, hval, ?_⟩
  · intro x hx
    refine ⟨allRed_firstN n x hx, ?_⟩
    rintro rfl
    obtain ⟨i, hi⟩ := List.mem_iff_getElem?.1 hx
    have := hval i 0 hi
    rw [FieldOk.val_zero, ← hroot] at this
    exact pow_ne_zero _ val_two_ne_zero this.symm
  · intro hn
    exact nodup_firstN (by rw [C07_order hs]; exact hn)

/-- C07. The number of points used by sign and verify is below the order in every supplied instance. -/
theorem C07_instances : ∀ I ∈ instances.drop 1, 2 * I.m2 + 1 ≤ orderX I.lambda := by decide

example : ((initExtensionField 2).toOption.map fun F => F.firstN 17) =
    some [2, 4, 8, 16, 32, 64, 128, 256, 512, 1024, 2048, 4096, 8192, 16384, 32768, 43, 86] := by decide +kernel

/-! ### C08 -/

/-- C08. Encoding and decoding are inverse to each other. -/
theorem C08_bytes {lam : Nat} {F : FieldState} (h : initExtensionField lam = .ok F) :
    (∀ a, (F.toBytes a).length = lam) ∧ (∀ bs, Reduced lam (F.fromBytes bs)) ∧
    (∀ a, Reduced lam a → F.fromBytes (F.toBytes a) = a) ∧ (∀ bs : Bytes, bs.length = lam → F.toBytes (F.fromBytes bs) = bs) ∧
    (∀ bs more : Bytes, bs.length = lam → F.fromBytes (bs ++ more) = F.fromBytes bs) := by
  obtain ⟨hF, rfl, _⟩ := initExtensionField_ok h
  refine ⟨length_toBytes, reduced_fromBytes, fun a ha => fromBytes_toBytes ha, fun bs hl => toBytes_fromBytes hl, fun bs more hl => ?_⟩
  unfold FieldState.fromBytes
  rw [← hl, List.take_left, List.take_length]

/-- C08. The encoding is little endian: bit `8i + j` of the element is bit `j` of byte `i`. -/
theorem C08_bits {lam : Nat} {F : FieldState} (h : initExtensionField lam = .ok F) (a : W64) (i j : Nat) (hi : i < lam) (hj : j < 8) (b : Byte)
    (hb : (F.toBytes a)[i]? = some b) : b.getLsbD j = a.getLsbD (8 * i + j) := by
  obtain ⟨hF, rfl, _⟩ := initExtensionField_ok h
  rw [FieldState.toBytes, List.getElem?_map, List.getElem?_range hi] at hb
  obtain rfl := Option.some.inj hb
  simp [BitVec.getLsbD_ushiftRight, hj]

example : ((initExtensionField 5).toOption.map fun F => (F.toBytes 0x0102030405, F.fromBytes [0xff, 2, 3, 4, 5, 6])) = some ([5, 4, 3, 2, 1], 0x05040302ff) := by decide +kernel

/-! ### C09 -/

/-- C09. `init_extension_field` throws exactly for unsupported extension degrees. -/
theorem C09_init (lam : Nat) : (¬ Supported lam → initExtensionField lam = .error .thrown) ∧ (Supported lam → ∃ F, initExtensionField lam = .ok F) := by
  constructor
  · intro h
    unfold initExtensionField
    split
    · exact absurd (Or.inl rfl) h
    · exact absurd (Or.inr (Or.inl rfl)) h
    · exact absurd (Or.inr (Or.inr (Or.inl rfl))) h
    · exact absurd (Or.inr (Or.inr (Or.inr rfl))) h
    · rfl
  · rintro (rfl | rfl | rfl | rfl) <;> exact ⟨_, rfl⟩

/-- C09. Sign and verify throw for unsupported extension degrees, whatever the other arguments are. -/
theorem C09_reject (I : Instance) (h : ¬ Supported I.lambda) (X : Xof) (fuel : Nat) :
    (∀ sk pk msg, sign X fuel I sk pk msg = .error .thrown) ∧ (∀ pk sig msg, verify X fuel I pk sig msg = .error .thrown) := by
  have := (C09_init I.lambda).1 h
  constructor
  · intro sk pk msg; unfold sign; rw [this]; rfl
  · intro pk sig msg; unfold verify; rw [this]; rfl

example : ¬ Supported ({ (instances.getD 1 (instances[0])) with lambda := 3 } : Instance).lambda := by unfold Supported; decide

/-! ### C42 -/

/-- C42. `ceil_log2(x)` is the least `n` with `x ≤ 2^n`. -/
theorem C42_ceilLog2 (x : Nat) (hx : x < 2 ^ 32) : x ≤ 2 ^ ceilLog2 x ∧ ∀ n, x ≤ 2 ^ n → ceilLog2 x ≤ n := by
  rw [ceilLog2_eq x hx]
  exact ⟨Nat.le_pow_clog (by norm_num) x, fun n hn => (Nat.clog_le_iff_le_pow (by norm_num)).2 hn⟩

/-- C42. The two implementations of `clz` agree, and count leading zeros: `32 - clz(x)` is the number of significant bits. -/
theorem C42_clz (x : BitVec 32) : (clz32Fallback x).toNat = clz32 x ∧ clz32 x ≤ 32 ∧ ∀ n ≤ 32, (x.toNat < 2 ^ n ↔ 32 - clz32 x ≤ n) := by
  refine ⟨clzFallback_eq x, ?_, ?_⟩
  · unfold clz32 builtinClz32; split <;> omega
  · intro n _
    rw [clz32_eq, Nat.clog_le_iff_le_pow (by norm_num)]; rfl

example : ceilLog2 0 = 0 ∧ ceilLog2 1 = 0 ∧ ceilLog2 64 = 6 ∧ ceilLog2 65 = 7 ∧ ceilLog2 (2 ^ 32 - 1) = 32 := by decide +kernel
example : clz32 0 = 32 ∧ clz32Fallback 0 = 32 ∧ clz32 1 = 31 ∧ clz32Fallback 0x00012345 = 15 := by decide +kernel

/-! ### C43 -/

/-- C43. Byte multiplication is multiplication modulo the AES polynomial, squaring is multiplication by itself. -/
theorem C43_mul (a b : Byte) : wordPoly (aesMul a b) = (wordPoly a * wordPoly b) %ₘ aesPoly ∧ wordPoly (aesSquare a) = (wordPoly a * wordPoly a) %ₘ aesPoly :=
  ⟨aesMul_spec a b, aesMul_spec a a⟩

/-- C43. Byte inversion is the inverse modulo the AES polynomial, and maps 0 to 0. -/
theorem C43_inv (a : Byte) : (a ≠ 0 → (wordPoly a * wordPoly (aesInv a)) %ₘ aesPoly = 1) ∧ aesInv 0 = 0 ∧
    ∀ b : Byte, (wordPoly a * wordPoly b) %ₘ aesPoly = 1 → b = aesInv a := by
  refine ⟨fun h => ?_, aesInv_zero, fun b hb => ?_⟩
  · rw [← aesMul_spec, aesMul_inv a h]; exact wordPoly_one (by norm_num)
  · rw [← aesMul_spec] at hb
    have h1 : aesMul a b = 1 := wordPoly_injective (hb.trans (wordPoly_one (by norm_num)).symm)
    exact (aesMul_one h1).2

/-- C43. The S-box used by the AES instructions, and the S-box computed from `inverse` and the affine map, are the S-box of FIPS 197. -/
theorem C43_sbox (a : Byte) : hwSbox a = Spec.Aes.sbox a ∧ affLin (aesInv a) ^^^ affConst = Spec.Aes.sbox a := by
  exact ⟨hwSbox_eq a, (sbox_spec a).symm.trans (hwSbox_eq a)⟩

example : aesMul 0x57 0x83 = 0xc1 ∧ aesInv 0x53 = 0xca ∧ Spec.Aes.sbox 0x53 = 0xed := by decide +kernel

/-! ### C44 -/

/-- C44. The Barrett reduction, which the library does not call, agrees with the one it uses (on all 128 bit words). -/
theorem C44_barrett (x : W128) : reduce32Barret x = reduce32 x := barret_eq x

example : reduce32Barret 0x40000000000000000000#128 = 0 ∧ reduce32Barret 0xfedcba9876543210#128 = reduce32 0xfedcba9876543210#128 ∧
    reduce32 0xfedcba9876543210#128 = 0xeb42c5e7 := by decide +kernel

end Banquet.Props
