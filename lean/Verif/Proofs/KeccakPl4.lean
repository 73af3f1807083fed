import Verif.Proofs.KeccakRest
import Verif.Model.KeccakPl4

/-! The functions of `Model/KeccakPl4`. -/

namespace Banquet.Pl4

open Spec

theorem each_list {f : Fin 4 → Opt64.Lanes → M Opt64.Lanes} {g : Fin 4 → Opt64.Lanes} (is : List (Fin 4)) (hd : is.Nodup) (s : Vector Opt64.Lanes 4) (h : ∀ i ∈ is, f i s[i] = .ok (g i)) :
    is.foldlM (fun (s : Vector Opt64.Lanes 4) (i : Fin 4) => do
      let t ← f i s[i]
      .ok (s.set i t)) s = .ok (Vector.ofFn fun i => if i ∈ is then g i else s[i]) := by
  induction is generalizing s with
  | nil =>
    refine congrArg Except.ok (Vector.ext fun i hi => ?_)
    rw [Vector.getElem_ofFn, if_neg (by simp)]
    rfl
  | cons j is ih =>
    obtain ⟨hj, hd⟩ := List.nodup_cons.1 hd
    have e : (do
      let t ← f j s[j]
      .ok (s.set j t) : M (Vector Opt64.Lanes 4)) = .ok (s.set j (g j)) := by
      rw [h j (List.mem_cons_self ..)]
      rfl
    have hne : ∀ i : Fin 4, i ≠ j → (s.set j (g j))[i] = s[i] := fun i hi => Vector.getElem_set_ne _ _ (fun c => hi (Fin.ext c.symm))
    rw [List.foldlM_cons, bindOk e, ih hd _ fun i hi => by rw [hne i (fun c => hj (c ▸ hi))]; exact h i (List.mem_cons_of_mem _ hi)]
    refine congrArg Except.ok (Vector.ext fun i hi => ?_)
    rw [Vector.getElem_ofFn, Vector.getElem_ofFn]
    by_cases hc : (⟨i, hi⟩ : Fin 4) = j
    · rw [if_neg (fun c => hj (hc ▸ c)), if_pos (hc ▸ List.mem_cons_self ..)]
      subst hc
      exact Vector.getElem_set_self ..
    · by_cases hm : (⟨i, hi⟩ : Fin 4) ∈ is
      · rw [if_pos hm, if_pos (List.mem_cons_of_mem _ hm)]
      · rw [if_neg hm, if_neg (by simp [hc, hm]), hne _ hc]

theorem eachState_eq {f : Fin 4 → Opt64.Lanes → M Opt64.Lanes} {s : Vector Opt64.Lanes 4} {g : Fin 4 → Opt64.Lanes} (h : ∀ i, f i s[i] = .ok (g i)) : eachState f s = .ok (Vector.ofFn g) := by
  refine (each_list [0, 1, 2, 3] (by decide) s fun i _ => h i).trans (congrArg Except.ok (Vector.ext fun i hi => ?_))
  rw [Vector.getElem_ofFn, Vector.getElem_ofFn, if_pos (by revert i; decide)]

theorem eachState_view {f : Fin 4 → Opt64.Lanes → M Opt64.Lanes} {s : Vector Opt64.Lanes 4} {P : Fin 4 → Opt64.Lanes → Prop} (h : ∀ i, ∃ t, f i s[i] = .ok t ∧ P i t) :
    ∃ s', eachState f s = .ok s' ∧ ∀ i : Fin 4, P i s'[i] := by
  choose g hg using h
  refine ⟨_, eachState_eq fun i => (hg i).1, fun i => ?_⟩
  have : (Vector.ofFn g)[i] = g i := Vector.getElem_ofFn i.isLt
  rw [this]
  exact (hg i).2

theorem bytes_eq {n : Nat} (h : n * 8 < 2 ^ 32) : bytes n = 8 * n := by
  rw [bytes, Nat.mod_eq_of_lt h, Nat.mul_comm]

theorem load_eq {data : Bytes} {pos n : Nat} (h : pos + n ≤ data.length) : load data pos n = .ok ((data.drop pos).take n) := if_pos (.inr h)

theorem load_length {data : Bytes} {pos n : Nat} (h : pos + n ≤ data.length) : ((data.drop pos).take n).length = n := by
  rw [List.length_take, List.length_drop]
  omega

theorem store_eq {out : Bytes} {pos : Nat} {bs : Bytes} (h : pos + bs.length ≤ out.length) :
    ∃ out', store out pos bs = .ok out' ∧ out'.length = out.length ∧ ∀ p, out'[p]? = if pos ≤ p ∧ p < pos + bs.length then bs[p - pos]? else out[p]? := by
  unfold store
  by_cases h0 : bs.length = 0
  · rw [if_pos h0]
    exact ⟨out, rfl, rfl, fun p => by rw [if_neg (by omega)]⟩
  · rw [if_neg h0, if_pos h]
    refine ⟨_, rfl, by simp; omega, fun p => ?_⟩
    have hl : (out.take pos).length = pos := by rw [List.length_take]; omega
    by_cases hp : p < pos
    · rw [if_neg (by omega), List.append_assoc, List.getElem?_append_left (by omega), List.getElem?_take_of_lt hp]
    · rw [List.append_assoc, List.getElem?_append_right (by omega), hl]
      by_cases hq : p < pos + bs.length
      · rw [if_pos (by omega), List.getElem?_append_left (by omega)]
      · rw [if_neg (by omega), List.getElem?_append_right (by omega), List.getElem?_drop]
        congr 1
        omega

/-- Four blocks of `n` bytes each, written every `step` bytes. -/
theorem stores_eq {f : Fin 4 → M Bytes} {g : Fin 4 → Bytes} {out : Bytes} {n step : Nat} (hf : ∀ i, f i = .ok (g i)) (hg : ∀ i, (g i).length = n) (hn : n ≤ step) (hl : 3 * step + n ≤ out.length) :
    ∃ out', [0, 1, 2, 3].foldlM (fun (out : Bytes) (i : Fin 4) => do store out (i.val * step) (← f i)) out = .ok out' ∧ out'.length = out.length ∧
      (∀ (l : Fin 4) (j : Nat), j < n → out'[l.val * step + j]? = (g l)[j]?) ∧ ∀ p, (∀ l j : Nat, l < 4 → j < n → p ≠ l * step + j) → out'[p]? = out[p]? := by
  obtain ⟨o1, e1, l1, g1⟩ := store_eq (out := out) (pos := (0 : Fin 4).val * step) (bs := g 0) (by rw [hg]; simp; omega)
  obtain ⟨o2, e2, l2, g2⟩ := store_eq (out := o1) (pos := (1 : Fin 4).val * step) (bs := g 1) (by rw [hg]; simp; omega)
  obtain ⟨o3, e3, l3, g3⟩ := store_eq (out := o2) (pos := (2 : Fin 4).val * step) (bs := g 2) (by rw [hg]; simp; omega)
  obtain ⟨o4, e4, l4, g4⟩ := store_eq (out := o3) (pos := (3 : Fin 4).val * step) (bs := g 3) (by rw [hg]; simp; omega)
  simp only [show (0 : Fin 4).val = 0 from rfl, show (1 : Fin 4).val = 1 from rfl, show (2 : Fin 4).val = 2 from rfl, show (3 : Fin 4).val = 3 from rfl, hg] at *
  refine ⟨o4, ?_, by omega, fun l j hj => ?_, fun p hp => ?_⟩
  · simp only [List.foldlM_cons, List.foldlM_nil, hf, Opt64.okThen]
    erw [e1, Opt64.okThen, e2, Opt64.okThen, e3, Opt64.okThen, e4]
    rfl
  · match l with
    | 0 => rw [g4, if_neg (by simp; omega), g3, if_neg (by simp; omega), g2, if_neg (by simp; omega), g1, if_pos (by simp; omega)]; congr 1; simp
    | 1 => rw [g4, if_neg (by simp; omega), g3, if_neg (by simp; omega), g2, if_pos (by simp; omega)]; congr 1; simp
    | 2 => rw [g4, if_neg (by simp; omega), g3, if_pos (by simp; omega)]; congr 1; simp
    | 3 => rw [g4, if_pos (by simp; omega)]; congr 1; simp
  · have h0 := hp 0 (p - 0 * step) (by omega)
    have h1 := hp 1 (p - 1 * step) (by omega)
    have h2 := hp 2 (p - 2 * step) (by omega)
    have h3 := hp 3 (p - 3 * step) (by omega)
    rw [g4, if_neg (by omega), g3, if_neg (by omega), g2, if_neg (by omega), g1, if_neg (by omega)]

theorem extract_200 (s : Opt64.Lanes) : Opt64.extractBytes s 0 200 = .error .ub := by
  unfold Opt64.extractBytes
  rw [if_pos rfl]
  have h : ∀ x : M Bytes, (∃ b, x = .ok b) → (x >>= fun out => Opt64.extractBytesInLane s (200 / 8) 0 (200 % 8) >>= fun rest => Except.ok (out ++ rest)) = (.error .ub : M Bytes) := by
    rintro x ⟨b, rfl⟩
    rfl
  exact h _ ⟨_, rfl⟩

theorem andAdd_200 (s : Opt64.Lanes) (input : Bytes) (h : input.length = 200) : Opt64.extractAndAddBytes s input 0 = .error .ub := by
  unfold Opt64.extractAndAddBytes
  rw [if_pos rfl, Opt64.andAdd_lanes s input 0 (input.length / 8) (by omega) (by omega), h]
  rfl

end Banquet.Pl4
