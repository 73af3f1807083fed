import Verif.Model.Loops
import Verif.Proofs.View

/-! Loops, vectors and containers of Model/Loops.lean in closed form. -/

namespace Banquet.Loops

variable {α σ : Type}

/-! ## Loops -/

theorem forTo_zero (body : Nat → σ → M σ) (s : σ) : forTo 0 body s = .ok s := rfl

theorem forTo_succ (n : Nat) (body : Nat → σ → M σ) (s : σ) : forTo (n + 1) body s = forTo n body s >>= body n := by
  unfold forTo
  rw [List.range_succ, List.foldlM_append]
  congr 1
  funext t
  change (body n t >>= fun s' => pure s') = body n t
  cases body n t <;> rfl

/-- A loop whose states are known. -/
theorem forTo_state (n : Nat) (body : Nat → σ → M σ) (s : σ) (S : Nat → σ) (h0 : s = S 0) (h : ∀ i < n, body i (S i) = .ok (S (i + 1))) : forTo n body s = .ok (S n) := by
  induction n with
  | zero => rw [forTo_zero, h0]
  | succ n ih =>
    rw [forTo_succ, ih fun i hi => h i (by omega), ok_bind]
    exact h n (by omega)

/-- A loop that fails in iteration `k`. -/
theorem forTo_stop (n : Nat) (body : Nat → σ → M σ) (s : σ) (S : Nat → σ) (k : Nat) (hk : k < n) (e : Err) (h0 : s = S 0) (h : ∀ i < k, body i (S i) = .ok (S (i + 1))) (hs : body k (S k) = .error e) :
    forTo n body s = .error e := by
  induction n with
  | zero => omega
  | succ n ih =>
    rw [forTo_succ]
    rcases Nat.lt_or_ge k n with hn | hn
    · rw [ih hn]
      rfl
    · have : n = k := by omega
      rw [this, forTo_state k body s S h0 h, ok_bind, hs]

theorem forTo_congr (n : Nat) (b b' : Nat → σ → M σ) (s : σ) (h : ∀ i < n, ∀ s, b i s = b' i s) : forTo n b s = forTo n b' s := by
  induction n with
  | zero => rfl
  | succ n ih =>
    rw [forTo_succ, forTo_succ, ih fun i hi => h i (by omega)]
    congr 1
    funext s
    exact h n (by omega) s

theorem forStep_one (a b : Nat) (body : Nat → σ → M σ) (s : σ) : forStep a b 1 body s = forTo (b - a) (fun i => body (a + i)) s := by
  unfold forStep
  simp

theorem forStep_four (n : Nat) (body : Nat → σ → M σ) (s : σ) : forStep 0 (n / 4 * 4) 4 body s = forTo (n / 4) (fun i => body (4 * i)) s := by
  unfold forStep
  have : (n / 4 * 4 - 0 + (4 - 1)) / 4 = n / 4 := by omega
  rw [this]
  simp

/-! ## Vectors -/

theorem rd_ok {v : List α} {i : Nat} {x : α} (h : v[i]? = some x) : rd v i = .ok x := by
  unfold rd
  rw [h]

theorem rd_map (n : Nat) (f : Nat → α) {i : Nat} (h : i < n) : rd ((List.range n).map f) i = .ok (f i) := rd_ok (by simp [h])

theorem rd_getD {v : List α} {i : Nat} (z : α) (h : i < v.length) : rd v i = .ok (v.getD i z) := rd_ok (by simp [h])

theorem rd_set {v : List α} {i : Nat} (x : α) (h : i < v.length) : rd (v.set i x) i = .ok x := rd_ok (by simp [h])

theorem rd_out {v : List α} {i : Nat} (h : v.length ≤ i) : rd v i = .error .ub := by
  unfold rd
  rw [List.getElem?_eq_none h]

theorem wr_ok {v : List α} {i : Nat} (x : α) (h : i < v.length) : wr v i x = .ok (v.set i x) := by
  unfold wr
  rw [if_pos h]

theorem wr_map (n : Nat) (f : Nat → α) {i : Nat} (x : α) (h : i < n) : wr ((List.range n).map f) i x = .ok ((List.range n).map fun k => if k = i then x else f k) := by
  rw [wr_ok _ (by simpa using h), set_range_map]

theorem wr_set {v : List α} {i : Nat} (x y : α) (h : i < v.length) : wr (v.set i x) i y = .ok (v.set i y) := by
  rw [wr_ok _ (by simpa using h), List.set_set]

theorem rd2_set {v : List (List α)} {i : Nat} (r : List α) (j : Nat) (h : i < v.length) : rd2 (v.set i r) i j = rd r j := by
  unfold rd2
  rw [rd_set _ h, ok_bind]

theorem rd2_map (n : Nat) (f : Nat → List α) {i : Nat} (j : Nat) (h : i < n) : rd2 ((List.range n).map f) i j = rd (f i) j := by
  unfold rd2
  rw [rd_map _ _ h, ok_bind]

theorem rd3_map (n : Nat) (f : Nat → List (List α)) {i : Nat} (j k : Nat) (h : i < n) : rd3 ((List.range n).map f) i j k = rd2 (f i) j k := by
  unfold rd3
  rw [rd_map _ _ h, ok_bind]

/-- One element of row `i` changes. -/
theorem wr2_set {v : List (List α)} {i : Nat} {r r' : List α} {j : Nat} {x : α} (h : i < v.length) (hr : wr r j x = .ok r') : wr2 (v.set i r) i j x = .ok (v.set i r') := by
  unfold wr2
  rw [rd_set _ h, ok_bind, hr, ok_bind, wr_set _ _ h]

theorem wr2_map {n : Nat} {f : Nat → List α} {i : Nat} {r' : List α} {j : Nat} {x : α} (h : i < n) (hr : wr (f i) j x = .ok r') :
    wr2 ((List.range n).map f) i j x = .ok ((List.range n).map fun k => if k = i then r' else f k) := by
  unfold wr2
  rw [rd_map _ _ h, ok_bind, hr, ok_bind, wr_map _ _ _ h]

theorem wr3_set {v : List (List (List α))} {i : Nat} {r r' : List (List α)} {j k : Nat} {x : α} (h : i < v.length) (hr : wr2 r j k x = .ok r') : wr3 (v.set i r) i j k x = .ok (v.set i r') := by
  unfold wr3
  rw [rd_set _ h, ok_bind, hr, ok_bind, wr_set _ _ h]

theorem resized_nil (n : Nat) (z : α) : resized [] n z = (List.range n).map fun _ => z := by
  unfold resized
  simp [List.map_const']

/-- A vector of which the first `i` elements are final. -/
def part (n : Nat) (f : Nat → α) (z : α) (i : Nat) : List α := (List.range n).map fun k => if k < i then f k else z

theorem part_zero (n : Nat) (f : Nat → α) (z : α) : part n f z 0 = List.replicate n z := by
  unfold part
  simp [List.map_const']

theorem part_full (n : Nat) (f : Nat → α) (z : α) : part n f z n = (List.range n).map f := by
  unfold part
  apply List.map_congr_left
  intro k hk
  rw [if_pos (List.mem_range.1 hk)]

theorem part_length (n : Nat) (f : Nat → α) (z : α) (i : Nat) : (part n f z i).length = n := by simp [part]

theorem part_rd (n : Nat) (f : Nat → α) (z : α) (i : Nat) (h : i < n) : rd (part n f z i) i = .ok z := by
  unfold part
  rw [rd_map _ _ h, if_neg (by omega)]

theorem part_set (n : Nat) (f : Nat → α) (z : α) (i : Nat) : (part n f z i).set i (f i) = part n f z (i + 1) := by
  unfold part
  rw [set_range_map]
  apply List.map_congr_left
  intro k _
  split_ifs <;> first | rfl | omega | (subst k; rfl)

theorem part_wr (n : Nat) (f : Nat → α) (z : α) (i : Nat) (h : i < n) : wr (part n f z i) i (f i) = .ok (part n f z (i + 1)) := by
  rw [wr_ok _ (by rw [part_length]; exact h), part_set]

theorem range_map_succ (f : Nat → α) (n : Nat) : (List.range (n + 1)).map f = (List.range n).map f ++ [f n] := by rw [List.range_succ, List.map_append]; rfl

/-- Building a vector by `push_back`. -/
theorem forTo_push (n : Nat) (body : Nat → List α → M (List α)) (f : Nat → α) (h : ∀ i < n, body i ((List.range i).map f) = .ok ((List.range i).map f ++ [f i])) :
    forTo n body [] = .ok ((List.range n).map f) := by
  refine forTo_state n body [] (fun i => (List.range i).map f) rfl fun i hi => ?_
  rw [h i hi, range_map_succ]

/-- Appending to a byte string. -/
theorem forTo_append (n : Nat) (body : Nat → Bytes → M Bytes) (f : Nat → Bytes) (acc : Bytes) (h : ∀ i < n, ∀ acc, body i acc = .ok (acc ++ f i)) :
    forTo n body acc = .ok (acc ++ (List.range n).flatMap f) := by
  refine (forTo_state n body acc (fun i => acc ++ (List.range i).flatMap f) (by simp) fun i hi => ?_)
  rw [h i hi, List.range_succ, List.flatMap_append, List.append_assoc]
  simp

/-- A running sum. -/
theorem forTo_foldl {β : Type} (n : Nat) (body : Nat → β → M β) (g : β → Nat → β) (s : β) (h : ∀ i < n, ∀ s, body i s = .ok (g s i)) : forTo n body s = .ok ((List.range n).foldl g s) := by
  refine (forTo_state n body s (fun i => (List.range i).foldl g s) rfl fun i hi => ?_)
  rw [h i hi, List.range_succ, List.foldl_append]
  rfl

theorem xorOnto_ok {src dst : Bytes} (h : src.length = dst.length) : xorOnto src dst = .ok (xorBytes src dst) := by
  unfold xorOnto
  rw [decide_eq_true h.le, require_true, ok_bind, h, List.drop_length, List.append_nil]

/-! ## Containers -/

/-- The container with `f e p` in slot `(e, p)`. -/
def of (T N k : Nat) (z : α) (f : Nat → Nat → List α) : RepContainer α := ⟨(List.range (T * N * k)).map fun i => (f (i / k / N) (i / k % N)).getD (i % k) z, T, N, k⟩

/-- One slot changes. -/
def upd (f : Nat → Nat → List α) (e p : Nat) (v : List α) : Nat → Nat → List α := fun e' p' => if e' = e ∧ p' = p then v else f e' p'

theorem upd_same (f : Nat → Nat → List α) (e p : Nat) (v : List α) : upd f e p v e p = v := by simp [upd]

theorem upd_upd (f : Nat → Nat → List α) (e p : Nat) (v w : List α) : upd (upd f e p v) e p w = upd f e p w := by
  funext e' p'
  unfold upd
  split <;> rfl

variable {T N k : Nat} {z : α}

theorem of_objectSize (f : Nat → Nat → List α) : (of T N k z f).objectSize = k := rfl

theorem slot_lt {i : Nat} (h : i < T * N * k) : i / k / N < T ∧ i / k % N < N := by
  have hk : 0 < k := by rcases Nat.eq_zero_or_pos k with h0 | h0; · subst h0; simp at h
                        · exact h0
  have hN : 0 < N := by rcases Nat.eq_zero_or_pos N with h0 | h0; · subst h0; simp at h
                        · exact h0
  refine ⟨?_, Nat.mod_lt _ hN⟩
  rw [Nat.div_lt_iff_lt_mul hN, Nat.div_lt_iff_lt_mul hk]
  exact h

theorem of_congr {f g : Nat → Nat → List α} (h : ∀ e < T, ∀ p < N, f e p = g e p) : of T N k z f = of T N k z g := by
  unfold of
  congr 1
  apply List.map_congr_left
  intro i hi
  obtain ⟨h1, h2⟩ := slot_lt (List.mem_range.1 hi)
  rw [h _ h1 _ h2]

theorem mk_of (T N k : Nat) (z : α) : RepContainer.mk' z T N k = of T N k z fun _ _ => [] := by
  unfold RepContainer.mk' of
  simp [List.map_const']

theorem offset_of (f : Nat → Nat → List α) (e p : Nat) : (of T N k z f).offset e p = (e * N + p) * k := by
  unfold RepContainer.offset of
  dsimp only
  ring

theorem slot_le {e p : Nat} (he : e < T) (hp : p < N) : (e * N + p) * k + k ≤ T * N * k := by
  have h1 : e * N + p + 1 ≤ T * N := by
    have : (e + 1) * N ≤ T * N := Nat.mul_le_mul_right _ he
    rw [Nat.add_mul] at this
    omega
  calc (e * N + p) * k + k = (e * N + p + 1) * k := by ring
    _ ≤ _ := Nat.mul_le_mul_right _ h1

theorem slot_index {e p j : Nat} (hp : p < N) (hj : j < k) : ((e * N + p) * k + j) / k / N = e ∧ ((e * N + p) * k + j) / k % N = p ∧ ((e * N + p) * k + j) % k = j := by
  have hk : 0 < k := by omega
  have hN : 0 < N := by omega
  have h1 : ((e * N + p) * k + j) / k = e * N + p := by rw [Nat.add_comm, Nat.add_mul_div_right _ _ hk, Nat.div_eq_of_lt hj, Nat.zero_add]
  rw [h1]
  refine ⟨?_, ?_, ?_⟩
  · rw [Nat.add_comm, Nat.add_mul_div_right _ _ hN, Nat.div_eq_of_lt hp, Nat.zero_add]
  · rw [Nat.add_comm, Nat.add_mul_mod_self_right, Nat.mod_eq_of_lt hp]
  · rw [Nat.add_comm, Nat.add_mul_mod_self_right, Nat.mod_eq_of_lt hj]

theorem of_length (f : Nat → Nat → List α) : (of T N k z f).data.length = T * N * k := by simp [of]

theorem of_data {f : Nat → Nat → List α} {e p j : Nat} (he : e < T) (hp : p < N) (hj : j < k) (hl : (f e p).length = k) : (of T N k z f).data[(e * N + p) * k + j]? = (f e p)[j]? := by
  obtain ⟨h1, h2, h3⟩ := slot_index (e := e) hp hj
  have hs := slot_le (k := k) he hp
  unfold of
  dsimp only
  rw [List.getElem?_map, List.getElem?_range (by omega), Option.map_some, h1, h2, h3, List.getD_eq_getElem?_getD, List.getElem?_eq_getElem (by omega)]
  rfl

theorem of_slice {f : Nat → Nat → List α} {e p : Nat} (he : e < T) (hp : p < N) (hl : (f e p).length = k) : ((of T N k z f).data.drop ((e * N + p) * k)).take k = f e p := by
  apply List.ext_getElem?
  intro j
  rw [List.getElem?_take]
  split
  · rename_i hj
    rw [List.getElem?_drop, of_data he hp hj hl]
  · rw [List.getElem?_eq_none (by omega)]

theorem get_of {f : Nat → Nat → List α} {e p : Nat} (he : e < T) (hp : p < N) (hl : (f e p).length = k) : get (of T N k z f) e p = .ok (f e p) := by
  unfold get RepContainer.read
  rw [offset_of, of_length, of_objectSize, decide_eq_true (slot_le he hp), require_true, ok_bind, of_slice he hp hl]

/-- Writing a slot. -/
theorem of_write {f : Nat → Nat → List α} {e p : Nat} (he : e < T) (hp : p < N) {v : List α} (hl : v.length = k) : (of T N k z f).write e p v = of T N k z (upd f e p v) := by
  have hs := slot_le (k := k) he hp
  unfold RepContainer.write
  rw [offset_of]
  have key : List.take ((e * N + p) * k) (of T N k z f).data ++ v ++ List.drop ((e * N + p) * k + v.length) (of T N k z f).data = (of T N k z (upd f e p v)).data := by
    apply List.ext_getElem?
    intro i
    have hk : ∀ i, (of T N k z f).data[i]? = if i < T * N * k then some ((f (i / k / N) (i / k % N)).getD (i % k) z) else none := by
      intro i
      unfold of
      dsimp only
      rw [List.getElem?_map]
      split
      · rw [List.getElem?_range (by omega)]
        rfl
      · rw [List.getElem?_eq_none (by simp; omega)]
        rfl
    have hk' : (of T N k z (upd f e p v)).data[i]? = if i < T * N * k then some ((upd f e p v (i / k / N) (i / k % N)).getD (i % k) z) else none := by
      unfold of
      dsimp only
      rw [List.getElem?_map]
      split
      · rw [List.getElem?_range (by omega)]
        rfl
      · rw [List.getElem?_eq_none (by simp; omega)]
        rfl
    have hlt : (List.take ((e * N + p) * k) (of T N k z f).data).length = (e * N + p) * k := by
      rw [List.length_take, of_length]
      omega
    rw [hk', List.append_assoc]
    rcases Nat.lt_or_ge i ((e * N + p) * k) with h | h
    · rw [List.getElem?_append_left (by omega), List.getElem?_take, if_pos h, hk, if_pos (by omega), if_pos (by omega)]
      have : ¬(i / k / N = e ∧ i / k % N = p) := by
        rintro ⟨h1, h2⟩
        have h3 : i / k = e * N + p := by rw [← h1, ← h2, Nat.mul_comm, Nat.div_add_mod]
        have h4 := Nat.div_mul_le_self i k
        rw [h3] at h4
        omega
      unfold upd
      rw [if_neg this]
    · rw [List.getElem?_append_right (by omega), hlt]
      rcases Nat.lt_or_ge i ((e * N + p) * k + k) with h' | h'
      · have hij : i - (e * N + p) * k < k := by omega
        obtain ⟨h1, h2, h3⟩ := slot_index (e := e) (p := p) hp hij
        have e1 : (e * N + p) * k + (i - (e * N + p) * k) = i := by omega
        rw [e1] at h1 h2 h3
        rw [List.getElem?_append_left (by omega), if_pos (by omega), h1, h2, h3, upd_same, List.getD_eq_getElem?_getD]
        have hv : i - (e * N + p) * k < v.length := by omega
        rw [List.getElem?_eq_getElem hv]
        rfl
      · rw [List.getElem?_append_right (by omega), List.getElem?_drop, hl, show (e * N + p) * k + k + (i - (e * N + p) * k - k) = i by omega, hk]
        split
        · rename_i hi
          have hkp : 0 < k := by rcases Nat.eq_zero_or_pos k with h0 | h0; · subst h0; simp at hi
                                 · exact h0
          have : ¬(i / k / N = e ∧ i / k % N = p) := by
            rintro ⟨h1, h2⟩
            have h3 : i / k = e * N + p := by rw [← h1, ← h2, Nat.mul_comm, Nat.div_add_mod]
            have h4 := Nat.lt_mul_div_succ i hkp
            rw [h3, Nat.mul_comm, Nat.add_mul] at h4
            omega
          unfold upd
          rw [if_neg this]
        · rfl
  dsimp only
  rw [key]
  rfl

theorem fill_of {f : Nat → Nat → List α} {e p : Nat} (he : e < T) (hp : p < N) {v : List α} (hl : v.length = k) : fill (of T N k z f) e p v = .ok (of T N k z (upd f e p v)) := by
  unfold fill
  rw [offset_of, of_length, hl, decide_eq_true (slot_le he hp), require_true, ok_bind, of_write he hp hl]

theorem spanRd_of {f : Nat → Nat → List α} {e p j : Nat} (he : e < T) (hp : p < N) (hj : j < k) (hl : (f e p).length = k) : spanRd (of T N k z f) e p j = .ok ((f e p).getD j z) := by
  unfold spanRd
  rw [of_objectSize, decide_eq_true hj, require_true, ok_bind, offset_of]
  exact rd_ok (by rw [of_data he hp hj hl]; simp [hl, hj])

theorem spanWr_of {f : Nat → Nat → List α} {e p j : Nat} (he : e < T) (hp : p < N) (hj : j < k) (hl : (f e p).length = k) (x : α) :
    spanWr (of T N k z f) e p j x = .ok (of T N k z (upd f e p ((f e p).set j x))) := by
  have hs := slot_le (k := k) he hp
  unfold spanWr
  rw [of_objectSize, decide_eq_true hj, require_true, ok_bind, offset_of, wr_ok _ (by rw [of_length]; omega), ok_bind, ← of_write he hp (by rw [List.length_set, hl])]
  unfold RepContainer.write
  rw [offset_of, List.length_set, hl]
  congr 2
  apply List.ext_getElem?
  intro i
  have hlt : (List.take ((e * N + p) * k) (of T N k z f).data).length = (e * N + p) * k := by
    rw [List.length_take, of_length]
    omega
  rw [List.append_assoc]
  rcases Nat.lt_or_ge i ((e * N + p) * k) with h | h
  · rw [List.getElem?_append_left (by omega), List.getElem?_take, if_pos h, List.getElem?_set_ne (by omega)]
  · rw [List.getElem?_append_right (by omega), hlt]
    rcases Nat.lt_or_ge i ((e * N + p) * k + k) with h' | h'
    · rw [List.getElem?_append_left (by rw [List.length_set]; omega), List.getElem?_set, List.getElem?_set]
      have e1 : (e * N + p) * k + (i - (e * N + p) * k) = i := by omega
      have := of_data (z := z) (f := f) he hp (j := i - (e * N + p) * k) (by omega) hl
      rw [e1] at this
      rw [this, of_length, hl]
      by_cases hi : (e * N + p) * k + j = i
      · rw [if_pos hi, if_pos (by omega), if_pos (by omega), if_pos hj]
      · rw [if_neg hi, if_neg (by omega)]
    · rw [List.getElem?_append_right (by rw [List.length_set]; omega), List.getElem?_drop, List.length_set, hl, show (e * N + p) * k + k + (i - (e * N + p) * k - k) = i by omega, List.getElem?_set_ne (by omega)]

theorem xorInto_of {f : Nat → Nat → Bytes} {e p : Nat} {z : Byte} (he : e < T) (hp : p < N) {v : Bytes} (hv : v.length = k) (hl : (f e p).length = k) :
    xorInto (of T N k z f) e p v = .ok (of T N k z (upd f e p (xorBytes v (f e p)))) := by
  unfold xorInto slice
  rw [offset_of, of_length, hv, decide_eq_true (slot_le he hp), require_true, ok_bind, of_slice he hp hl, of_write he hp]
  unfold xorBytes
  rw [List.length_zipWith]
  omega

theorem getBytes_of {f : Nat → Nat → Bytes} {e p start len : Nat} {z : Byte} (he : e < T) (hp : p < N) (hl : (f e p).length = k) (h : start + len ≤ k) :
    getBytes (of T N k z f) e p start len = .ok (tapeBytes (f e p) start len) := by
  unfold getBytes
  rw [get_of he hp hl, ok_bind, hl, decide_eq_true h, require_true, ok_bind]
  rfl

/-- The slots of row `e` below `n` change. -/
def rowUpd (f : Nat → Nat → List α) (e n : Nat) (g : Nat → List α) : Nat → Nat → List α := fun e' p' => if e' = e ∧ p' < n then g p' else f e' p'

theorem rowUpd_zero (f : Nat → Nat → List α) (e : Nat) (g : Nat → List α) : rowUpd f e 0 g = f := by
  funext e' p'
  simp [rowUpd]

theorem rowUpd_succ (f : Nat → Nat → List α) (e n : Nat) (g : Nat → List α) : upd (rowUpd f e n g) e n (g n) = rowUpd f e (n + 1) g := by
  funext e' p'
  unfold upd rowUpd
  split_ifs <;> first | rfl | omega | (rename_i h _; rw [h.2])

theorem rowUpd_in (f : Nat → Nat → List α) (e n : Nat) (g : Nat → List α) {p : Nat} (h : p < n) : rowUpd f e n g e p = g p := by simp [rowUpd, h]

/-- The rows below `e` change. -/
def below (f : Nat → Nat → List α) (e : Nat) (G : Nat → Nat → List α) : Nat → Nat → List α := fun e' p' => if e' < e then G e' p' else f e' p'

theorem below_zero (f G : Nat → Nat → List α) : below f 0 G = f := by
  funext e' p'
  simp [below]

theorem of_below_succ (f G : Nat → Nat → List α) (e : Nat) : of T N k z (rowUpd (below f e G) e N (G e)) = of T N k z (below f (e + 1) G) := by
  refine of_congr fun e' _ p' hp' => ?_
  unfold rowUpd below
  split_ifs <;> first | rfl | omega | (rename_i h _; rw [h.1])

theorem of_below_full (f G : Nat → Nat → List α) : of T N k z (below f T G) = of T N k z G := of_congr fun e he p _ => by simp [below, he]

/-- Filling row `e`. -/
theorem forTo_fill (n : Nat) (hn : n ≤ N) (f : Nat → Nat → List α) {e : Nat} (he : e < T) (g : Nat → List α) (hg : ∀ p < n, (g p).length = k) (body : Nat → RepContainer α → M (RepContainer α))
    (h : ∀ p < n, ∀ c, body p c = fill c e p (g p)) : forTo n body (of T N k z f) = .ok (of T N k z (rowUpd f e n g)) := by
  refine (forTo_state n body _ (fun p => of T N k z (rowUpd f e p g)) (by rw [rowUpd_zero]) fun p hp => ?_)
  rw [h p hp, fill_of he (by omega) (hg p hp), rowUpd_succ]

/-- Filling row `e` by fours. -/
theorem forTo_fill4 (n : Nat) (hn : n ≤ N) (f : Nat → Nat → List α) {e : Nat} (he : e < T) (g : Nat → List α) (hg : ∀ p < n, (g p).length = k) (body : Nat → RepContainer α → M (RepContainer α))
    (h : ∀ i < n / 4, ∀ c, body i c = (do
      let c ← fill c e (4 * i) (g (4 * i))
      let c ← fill c e (4 * i + 1) (g (4 * i + 1))
      let c ← fill c e (4 * i + 2) (g (4 * i + 2))
      fill c e (4 * i + 3) (g (4 * i + 3)))) : forTo (n / 4) body (of T N k z f) = .ok (of T N k z (rowUpd f e (n / 4 * 4) g)) := by
  refine ((forTo_state (n / 4) body _ (fun i => of T N k z (rowUpd f e (4 * i) g)) (by rw [rowUpd_zero]) fun i hi => ?_).trans (by rw [Nat.mul_comm]))
  rw [h i hi, fill_of he (by omega) (hg _ (by omega)), ok_bind, rowUpd_succ, fill_of he (by omega) (hg _ (by omega)), ok_bind, rowUpd_succ, fill_of he (by omega) (hg _ (by omega)), ok_bind, rowUpd_succ,
    fill_of he (by omega) (hg _ (by omega)), rowUpd_succ]
  rfl

/-- The rest after the fours. -/
theorem forTo_fillRest (a n : Nat) (hn : n ≤ N) (ha : a ≤ n) (f : Nat → Nat → List α) {e : Nat} (he : e < T) (g : Nat → List α) (hg : ∀ p < n, (g p).length = k) (body : Nat → RepContainer α → M (RepContainer α))
    (h : ∀ i < n - a, ∀ c, body i c = fill c e (a + i) (g (a + i))) : forTo (n - a) body (of T N k z (rowUpd f e a g)) = .ok (of T N k z (rowUpd f e n g)) := by
  refine ((forTo_state (n - a) body _ (fun i => of T N k z (rowUpd f e (a + i) g)) rfl fun i hi => ?_).trans (by rw [Nat.add_sub_cancel' ha]))
  rw [h i hi, fill_of he (by omega) (hg _ (by omega)), rowUpd_succ]
  rfl

end Banquet.Loops
