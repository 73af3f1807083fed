import Verif.Proofs.Random
import Verif.Props.Sign

/-! Property theorems C63 and C64: random bytes, and key generation with a random generator that may fail. -/

namespace Banquet.Props

open Spec Spec.Aes

/-! ## C63: rand_bytes -/

/-- C63, `getrandom`: short reads and errors are reported; there are no other failures. -/
theorem C63_getrandom (ret : Option Bytes) (buf : Bytes) (_ : ∀ bs, ret = some bs → bs.length ≤ buf.length) : Filled buf (ret.getD []) (randGetrandom ret buf) ∧
    ((randGetrandom ret buf).1 = true ↔ ∃ bs, ret = some bs ∧ bs.length = buf.length) := by
  cases ret with
  | none => exact ⟨⟨rfl, fun h => by simp [randGetrandom] at h⟩, by simp [randGetrandom]⟩
  | some bs =>
    refine ⟨⟨rfl, fun h => ?_⟩, by simp [randGetrandom]⟩
    have e : bs.length = buf.length := by simpa [randGetrandom] using h
    refine ⟨e, ?_⟩
    change bs ++ buf.drop bs.length = bs
    rw [e, List.drop_length, List.append_nil]

example : (randGetrandom (some [1, 2]) [0, 0, 0] = (false, [1, 2, 0])) ∧ randGetrandom (some [1, 2, 3]) [0, 0, 0] = (true, [1, 2, 3]) := by decide

/-- C63, `SecRandomCopyBytes`: a function that reports success only after writing all bytes asked for. -/
theorem C63_apple (res : Bool × Bytes) (buf : Bytes) (h : res.1 = true → res.2.length = buf.length) : Filled buf res.2 (randApple res buf) ∧ ((randApple res buf).1 = true ↔ res.1 = true) := by
  refine ⟨⟨rfl, fun hs => ⟨h hs, ?_⟩⟩, Iff.rfl⟩
  change res.2 ++ buf.drop res.2.length = res.2
  rw [h hs, List.drop_length, List.append_nil]

example : randApple (true, [1, 2, 3]) [0, 0, 0] = (true, [1, 2, 3]) := by decide

/-- C63, `BCryptGenRandom`: the length is not truncated; buffers too long for the interface are refused untouched. -/
theorem C63_windows (gen : Nat → Bool × Bytes) (buf : Bytes) (h : ∀ n, (gen n).1 = true → (gen n).2.length = n) :
    (buf.length < 2 ^ 32 → Filled buf (gen buf.length).2 (randWindows gen buf) ∧ ((randWindows gen buf).1 = true ↔ (gen buf.length).1 = true)) ∧
    (2 ^ 32 ≤ buf.length → randWindows gen buf = (false, buf)) := by
  refine ⟨fun hl => ?_, fun hl => ?_⟩
  · have e : randWindows gen buf = ((gen buf.length).1, overwrite buf (gen buf.length).2) := by
      unfold randWindows
      rw [if_neg (by omega), Nat.mod_eq_of_lt hl]
    rw [e]
    refine ⟨⟨rfl, fun hs => ⟨h _ hs, ?_⟩⟩, Iff.rfl⟩
    change (gen buf.length).2 ++ buf.drop (gen buf.length).2.length = (gen buf.length).2
    rw [h _ hs, List.drop_length, List.append_nil]
  · unfold randWindows
    rw [if_pos (by omega)]

example : randWindows (fun n => (true, List.replicate n 7)) [0, 0, 0] = (true, [7, 7, 7]) := by decide

/-- C63, `/dev/urandom`: if `read` never writes more than it is asked for, the function never writes outside the buffer; if it returns, the buffer holds what was delivered; success means that all of it
was delivered, failure that some system call failed for good. Interrupted calls are repeated and lose nothing. -/
theorem C63_urandom (o : Nat → OpenResult) (ready : Bool) (r : Nat → ReadResult) (buf : Bytes) (hr : ∀ i bs, r i = .data bs → (delivered r i).length + bs.length ≤ buf.length) (fuel : Nat) :
    randUrandom o ready r fuel buf = .error .fuel ∨
    ∃ res n, randUrandom o ready r fuel buf = .ok res ∧ Filled buf (delivered r n) res ∧
      (res.1 = true → ready = true ∧ (∃ i, o i = .file) ∧ ∀ j < n, r j ≠ .failed) ∧
      (res.1 = false → (∃ i, o i = .failed) ∨ ready = false ∨ r n = .failed ∧ (delivered r n).length < buf.length) := by
  have ho : ∀ fuel i, openLoop o fuel i = .error .fuel ∨ (openLoop o fuel i = .ok true ∧ ∃ i, o i = .file) ∨ openLoop o fuel i = .ok false ∧ ∃ i, o i = .failed := by
    intro fuel
    induction fuel with
    | zero => intro i; exact .inl rfl
    | succ fuel ih =>
      intro i
      unfold openLoop
      cases h : o i with
      | file => exact .inr (.inl ⟨rfl, i, h⟩)
      | interrupted => exact ih (i + 1)
      | failed => exact .inr (.inr ⟨rfl, i, h⟩)
  unfold randUrandom
  rcases ho fuel 0 with h | ⟨h, hx⟩ | ⟨h, hx⟩
  · rw [h]
    exact .inl rfl
  · rw [h, ok_bind]
    cases ready with
    | false => exact .inr ⟨(false, buf), 0, rfl, ⟨rfl, by simp⟩, by simp, fun _ => .inr (.inl rfl)⟩
    | true =>
      have e0 : delivered r 0 = [] := rfl
      have := readLoop_spec r buf hr fuel 0 (by rw [e0]; exact Nat.zero_le _)
      rw [e0, List.length_nil, List.drop_zero] at this
      simp only [Bool.not_true, Bool.false_eq_true, if_false]
      rcases this with ⟨n, _, _, h3, h4, h5⟩ | ⟨n, _, _, h3, h4, h5⟩ | ⟨_, _, h5⟩
      · refine .inr ⟨_, n, h5, ⟨?_, fun _ => ⟨h3, rfl⟩⟩, fun _ => ⟨trivial, hx, fun j hj => h4 j (Nat.zero_le j) hj⟩, by simp⟩
        rw [h3, List.drop_length, List.append_nil]
      · exact .inr ⟨_, n, h5, ⟨rfl, by simp⟩, by simp, fun _ => .inr (.inr ⟨h4, h3⟩)⟩
      · exact .inl h5
  · rw [h, ok_bind]
    exact .inr ⟨(false, buf), 0, rfl, ⟨rfl, by simp⟩, by simp, fun _ => .inl hx⟩

/-- C63: the function returns with success as soon as the file could be opened and the deliveries add up to the buffer, if no call failed before. -/
theorem C63_success (o : Nat → OpenResult) (r : Nat → ReadResult) (buf : Bytes) (hr : ∀ i bs, r i = .data bs → (delivered r i).length + bs.length ≤ buf.length) (k n : Nat)
    (hk : o k = .file) (hk' : ∀ j < k, o j = .interrupted) (hn : (delivered r n).length = buf.length) (hn' : ∀ j < n, r j ≠ .failed) (fuel : Nat) (h1 : k < fuel) (h2 : n ≤ fuel) :
    randUrandom o true r fuel buf = .ok (true, delivered r n) := by
  have ho : ∀ d i fuel, i + d = k → d < fuel → openLoop o fuel i = .ok true := by
    intro d
    induction d with
    | zero =>
      intro i fuel hi hf
      obtain ⟨f, rfl⟩ : ∃ f, fuel = f + 1 := ⟨fuel - 1, by omega⟩
      rw [openLoop, show i = k by omega, hk]
    | succ d ih =>
      intro i fuel hi hf
      obtain ⟨f, rfl⟩ : ∃ f, fuel = f + 1 := ⟨fuel - 1, by omega⟩
      rw [openLoop, hk' i (by omega)]
      exact ih (i + 1) f (by omega) (by omega)
  have hmono : ∀ a b, a ≤ b → (delivered r a).length ≤ (delivered r b).length := by
    intro a b hab
    induction hab with
    | refl => exact le_refl _
    | step _ ih => rw [delivered_succ, List.length_append]; omega
  have hpre : ∀ a b, a ≤ b → (delivered r a).length = (delivered r b).length → delivered r a = delivered r b := by
    intro a b hab
    induction hab with
    | refl => exact fun _ => rfl
    | @step b hab ih =>
      intro h
      have h3 := hmono _ _ hab
      have h4 := hmono _ _ (Nat.le_succ b)
      rw [ih (by omega), delivered_succ]
      rw [delivered_succ, List.length_append] at h
      symm
      refine List.append_right_eq_self.2 ?_
      apply List.eq_nil_of_length_eq_zero
      omega
  unfold randUrandom
  rw [ho k 0 fuel (by omega) h1, ok_bind]
  have e0 : delivered r 0 = [] := rfl
  have := readLoop_spec r buf hr fuel 0 (by rw [e0]; exact Nat.zero_le _)
  rw [e0, List.length_nil, List.drop_zero] at this
  simp only [Bool.not_true, Bool.false_eq_true, if_false]
  rcases this with ⟨m, _, _, h3, _, h5⟩ | ⟨m, _, _, h3, h4, h5⟩ | ⟨h3, _, _⟩
  · rw [h5]
    rcases Nat.le_total m n with h | h
    · rw [hpre m n h (by omega)]
    · rw [hpre n m h (by omega)]
  · exfalso
    rcases Nat.lt_or_ge m n with h | h
    · exact hn' m h h4
    · have := hmono n m h
      omega
  · exfalso
    have := hmono n (0 + fuel) (by omega)
    omega

/-- Example: an interrupted `open`, a short read, an interrupted read and the rest. -/
def someReads : Nat → ReadResult
  | 0 => .data [1, 2]
  | 1 => .again
  | 2 => .data [3]
  | _ => .failed

theorem someReads_fit (i : Nat) (bs : Bytes) (h : someReads i = .data bs) : (delivered someReads i).length + bs.length ≤ [(0 : Byte), 0, 0].length := by
  match i with
  | 0 => cases h; decide
  | 1 => cases h
  | 2 => cases h; decide
  | i + 3 => cases h

example : randUrandom (fun i => if i = 0 then .interrupted else .file) true someReads 5 [0, 0, 0] = .ok (true, [1, 2, 3]) :=
  C63_success _ someReads _ someReads_fit 1 3 rfl (fun j hj => by rw [if_pos (by omega)]) (by decide) (fun j hj => by
    match j with
    | 0 => simp [someReads]
    | 1 => simp [someReads]
    | 2 => simp [someReads]) 5 (by decide) (by decide)

/-- C63: only a file that is at its end makes the loop endless; `read` returning 0 is not treated as an error. -/
theorem C63_eof (o : Nat → OpenResult) (r : Nat → ReadResult) (buf : Bytes) (hb : buf ≠ []) (hr : ∀ i, r i = .data []) (ho : o 0 = .file) (fuel : Nat) : randUrandom o true r fuel buf = .error .fuel := by
  have hd : ∀ n, delivered r n = [] := fun n => by
    induction n with
    | zero => rfl
    | succ n ih => rw [delivered_succ, ih, hr]; rfl
  have hl := List.length_pos_of_ne_nil hb
  unfold randUrandom
  cases fuel with
  | zero => rfl
  | succ fuel =>
    rw [openLoop, ho]
    simp only [ok_bind, Bool.not_true, Bool.false_eq_true, if_false]
    have := readLoop_spec r buf (fun i bs h => by rw [hr] at h; cases h; rw [hd]; exact Nat.zero_le _) (fuel + 1) 0 (by rw [hd]; exact Nat.zero_le _)
    rw [hd, List.length_nil, List.drop_zero] at this
    rcases this with ⟨n, _, _, h, _, _⟩ | ⟨n, _, _, _, h, _⟩ | ⟨_, _, h⟩
    · rw [hd, List.length_nil] at h
      omega
    · rw [hr] at h
      cases h
    · exact h

example (fuel : Nat) : randUrandom (fun _ => .file) true (fun _ => .data []) fuel [0] = .error .fuel := C63_eof _ _ _ (by decide) (fun _ => rfl) rfl fuel

/-! ## C64: key generation with a generator that may fail -/

/-- C64: key generation that returns has secret key and plaintext from the random generator. -/
def C64_statement : Prop := ∀ (I : Instance), Consistent I → ∀ (w : Nat → Bytes × Bytes), (∀ i, (w i).1.length ≤ I.aes.keySize ∧ (w i).2.length ≤ I.ctSize) → ∀ (fuel : Nat) (sk pk : Bytes),
  keygenRand I w fuel = .ok (sk, pk) → Random (fun i => (w i).1) fuel sk ∧ Random (fun i => (w i).2) fuel (pk.take I.ctSize)

/-- C64, the part that holds: whatever the generator wrote and whether or not it failed, if key generation returns then the result is a key pair and every byte of the secret key was delivered by the
generator. (The code does not look at the return value; a key that was not completely written is rejected because its last byte is still zero and an input of the S-box.) Missing: the plaintext. -/
theorem C64_key_partial (I : Instance) (hI : Consistent I) (w : Nat → Bytes × Bytes) (hw : ∀ i, (w i).1.length ≤ I.aes.keySize ∧ (w i).2.length ≤ I.ctSize) (fuel : Nat) (sk pk : Bytes)
    (h : keygenRand I w fuel = .ok (sk, pk)) : KeyPair I sk pk ∧ Random (fun i => (w i).1) fuel sk := by
  rw [keygenRand_eq] at h
  have hk : ∀ n, (contents (fun j => (w j).1) (List.replicate I.aes.keySize 0) n).length = I.aes.keySize := fun n => by
    rw [length_contents (fun i => by rw [List.length_replicate]; exact (hw i).1), List.length_replicate]
  have hp : ∀ n, (contents (fun j => (w j).2) (List.replicate I.ctSize 0) n).length = I.ctSize := fun n => by
    rw [length_contents (fun i => by rw [List.length_replicate]; exact (hw i).2), List.length_replicate]
  have hd := fun i => And.intro (hk (i + 1)) (hp (i + 1))
  refine ⟨keygen_pair I hI _ hd fuel sk pk h, ?_⟩
  obtain ⟨h1, _, pt, _, _, h4, i, hi, he, _⟩ := C23_keygen I hI _ hd fuel sk pk h
  simp only [Prod.mk.injEq] at he
  obtain ⟨rfl, rfl⟩ := he
  obtain ⟨hv, e4, hb⟩ := consistent_variant hI
  have hs : I.aes.keySize = 16 ∨ I.aes.keySize = 24 ∨ I.aes.keySize = 32 := by rw [← e4]; exact hv.spec.1
  intro p hlt
  rw [hk] at hlt
  rcases contents_getD (fun j => (w j).1) (List.replicate I.aes.keySize 0) p (i + 1) with ⟨j, g1, g2, g3⟩ | ⟨g1, _⟩
  · exact ⟨j, by omega, g2, g3⟩
  · exfalso
    refine h4 (List.mem_append_left _ ?_)
    have := last_mem (nk := I.aes.keySize / 4) (by omega) (contents (fun j => (w j).1) (List.replicate I.aes.keySize 0) (i + 1)) (n := 4 * (I.aes.keySize / 4 + 7)) (by omega)
    rcases contents_getD (fun j => (w j).1) (List.replicate I.aes.keySize 0) (4 * (I.aes.keySize / 4) - 1) (i + 1) with ⟨j, f1, f2, _⟩ | ⟨_, f2⟩
    · have := g1 j f1
      omega
    · rw [f2] at this
      rw [List.getD_eq_getElem?_getD, List.getElem?_replicate, if_pos (by omega)] at this
      exact this

/-- C64, the negative part of the guarantee: without one complete delivery of key bytes, key generation does not return; it neither reports the failure nor stops. -/
theorem C64_hang (I : Instance) (hI : Consistent I) (w : Nat → Bytes × Bytes) (hw : ∀ i, (w i).1.length < I.aes.keySize ∧ (w i).2.length ≤ I.ctSize) (fuel : Nat) : keygenRand I w fuel = .error .fuel := by
  obtain ⟨hv, e4, hb⟩ := consistent_variant hI
  have hs : I.aes.keySize = 16 ∨ I.aes.keySize = 24 ∨ I.aes.keySize = 32 := by rw [← e4]; exact hv.spec.1
  have key : ∀ fuel i key pt, keygenLoop I w fuel i key pt = .error .fuel ∨ ∃ r, keygenLoop I w fuel i key pt = .ok r := by
    intro fuel
    induction fuel with
    | zero => intro i key pt; exact .inl rfl
    | succ fuel ih =>
      intro i key pt
      unfold keygenLoop
      simp only [if_pos hs]
      split
      · exact .inr ⟨_, rfl⟩
      · exact ih _ _ _
  rcases key fuel 0 _ _ with h | ⟨⟨sk, pk⟩, h⟩
  · exact h
  · exfalso
    obtain ⟨⟨h1, _⟩, h2⟩ := C64_key_partial I hI w (fun i => ⟨Nat.le_of_lt (hw i).1, (hw i).2⟩) fuel sk pk h
    obtain ⟨j, _, hj, _⟩ := h2 (I.aes.keySize - 1) (by omega)
    have := (hw j).1
    change _ < (w j).1.length at hj
    omega

/-- A generator that delivers the whole key but only four bytes of the plaintext. -/
def shortRead : Nat → Bytes × Bytes := fun _ => (katKey, [1, 1, 1, 1])

theorem shortRead_keygen : keygenRand smallInstance shortRead 1 = .ok (katKey, katPk) := by
  have e : aesPlain smallInstance.aes.keySize (overwrite (List.replicate smallInstance.aes.keySize 0) (shortRead 0).1) (overwrite (List.replicate smallInstance.ctSize 0) (shortRead 0).2) =
      some [11, 90, 129, 77, 149, 96, 28, 199, 239, 231, 18, 40, 62, 5, 239, 143] := kat_usable
  unfold keygenRand keygenLoop
  simp only [e]
  rfl

theorem shortRead_fit (i : Nat) : (shortRead i).1.length ≤ smallInstance.aes.keySize ∧ (shortRead i).2.length ≤ smallInstance.ctSize := by
  unfold shortRead
  decide

/-- Example for `C64_key_partial`: the key is complete. -/
example : KeyPair smallInstance katKey katPk ∧ Random (fun i => (shortRead i).1) 1 katKey :=
  C64_key_partial smallInstance small_consistent shortRead (fun i => shortRead_fit i) 1 _ _ shortRead_keygen

/-- Example for `C64_hang`: a generator that is not ready (`getrandom` with `GRND_NONBLOCK` early after boot). -/
example (fuel : Nat) : keygenRand smallInstance (fun _ => ([], [])) fuel = .error .fuel := C64_hang smallInstance small_consistent _ (fun _ => by decide) fuel

/-- C64 fails: a short read of the plaintext goes unnoticed; twelve of its bytes were never drawn. -/
theorem C64_violated : ¬ C64_statement := fun h => by
  obtain ⟨j, _, hj, _⟩ := (h smallInstance small_consistent shortRead (fun i => shortRead_fit i) 1 _ _ shortRead_keygen).2 4 (by decide)
  change 4 < [(1 : Byte), 1, 1, 1].length at hj
  exact absurd hj (by decide)

/-- C64: if all calls succeed, as `C63` says in terms of what was delivered, key generation is the one of `C23` with fresh draws in every iteration. -/
theorem C64_success (I : Instance) (w : Nat → Bytes × Bytes) (hw : ∀ i, (w i).1.length = I.aes.keySize ∧ (w i).2.length = I.ctSize) (fuel : Nat) : keygenRand I w fuel = keygen I w fuel 0 := by
  rw [keygenRand_eq]
  congr 1
  funext j
  have full : ∀ (a b : Bytes), b.length = a.length → overwrite a b = b := fun a b h => by
    unfold overwrite
    rw [h, List.drop_length, List.append_nil]
  have e1 : contents (fun j => (w j).1) (List.replicate I.aes.keySize 0) (j + 1) = (w j).1 := by
    rw [contents, full]
    rw [length_contents (fun i => by rw [List.length_replicate]; exact Nat.le_of_eq (hw i).1), List.length_replicate]
    exact (hw j).1
  have e2 : contents (fun j => (w j).2) (List.replicate I.ctSize 0) (j + 1) = (w j).2 := by
    rw [contents, full]
    rw [length_contents (fun i => by rw [List.length_replicate]; exact Nat.le_of_eq (hw i).2), List.length_replicate]
    exact (hw j).2
  rw [e1, e2]

example : keygenRand smallInstance (fun _ => (katKey, [1, 1, 1, 1] ++ List.replicate 12 0)) 3 = keygen smallInstance (fun _ => (katKey, [1, 1, 1, 1] ++ List.replicate 12 0)) 3 0 :=
  C64_success _ _ (fun _ => by decide) 3

end Banquet.Props
