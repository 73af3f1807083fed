import Verif.Proofs.BenchOut
import Verif.Model.Bench

/-! Property theorems C95: what the benchmark tools measure and print, and what parse_bench.py makes of it. -/

namespace Banquet.Props

open Tools Spec

/-- C95. `timing_init` never fails, so that the tools never print their message about it. A file descriptor is kept only if the system call gave one that is an `int`. -/
theorem C95_init (armv8 : Option Bool) (linux : Option Int) :
    (timingInit armv8 linux).1 = true ∧ (armv8 = some true → (timingInit armv8 linux).2 = .armv8) ∧
    (armv8 ≠ some true → ∀ fd, -1 ≤ fd → fd < 2 ^ 31 → linux = some fd → (timingInit armv8 linux).2 = if 0 ≤ fd then .perf fd else .clock) ∧
    (armv8 ≠ some true → linux = none → (timingInit armv8 linux).2 = .clock) ∧
    (armv8 ≠ some true → ∀ fd, 2 ^ 31 ≤ fd → linux = some fd → (timingInit armv8 linux).2 = .clock) := by
  have key : armv8 ≠ some true → timingInit armv8 linux = match linux.bind perfInit with
    | some c => (true, c)
    | none => (true, .clock) := fun h => by
    unfold timingInit
    split
    · exact absurd rfl h
    · rfl
  refine ⟨?_, fun h => by rw [h]; rfl, fun h fd h1 h2 hl => ?_, fun h hl => by rw [key h, hl]; rfl, fun h fd h1 hl => ?_⟩
  · by_cases h : armv8 = some true
    · rw [h]; rfl
    · rw [key h]; split <;> rfl
  · rw [key h, hl]
    have hb : ¬ fd > 2147483647 := by omega
    have hp : perfInit fd = if fd = -1 then none else some (.perf fd) := by
      unfold perfInit
      simp only [if_neg hb]
    rw [Option.bind_some, hp]
    by_cases h0 : 0 ≤ fd
    · have h1 : fd ≠ -1 := by omega
      rw [if_neg h1, if_pos h0]
    · have h1 : fd = -1 := by omega
      rw [if_pos h1, if_neg h0]
  · rw [key h, hl]
    have hb : fd > 2147483647 := by omega
    have hp : perfInit fd = none := by
      unfold perfInit
      simp only [if_pos hb, if_true]
    rw [Option.bind_some, hp]

/-- Differences modulo 2^64. -/
private theorem sub_elapsed (a b : Nat) (h : a ≤ b) (hd : b - a < 2 ^ 64) : (BitVec.ofNat 64 b - BitVec.ofNat 64 a).toNat = b - a := by
  rw [BitVec.toNat_sub, BitVec.toNat_ofNat, BitVec.toNat_ofNat]
  omega

/-- C95. If the clock counts time, even modulo 2^64 with overflows in between, every measured number is the time that passed. -/
theorem C95_elapsed (t : Nat → Nat) (hmono : ∀ k, t k ≤ t (k + 1)) (hd : ∀ k, t (k + 1) - t k < 2 ^ 64) (size i : Nat) (hs : size < 2 ^ 64) :
    let m := measure (fun k => BitVec.ofNat 64 (t k)) size i
    m.keygen.toNat = t (10 * i + 1) - t (10 * i) ∧ m.sign.toNat = t (10 * i + 3) - t (10 * i + 2) ∧ m.serialize.toNat = t (10 * i + 5) - t (10 * i + 4) ∧
    m.deserialize.toNat = t (10 * i + 7) - t (10 * i + 6) ∧ m.verify.toNat = t (10 * i + 9) - t (10 * i + 8) ∧ m.size.toNat = size :=
  have e := fun k => sub_elapsed (t k) (t (k + 1)) (hmono k) (hd k)
  ⟨e (10 * i), e (10 * i + 2), e (10 * i + 4), e (10 * i + 6), e (10 * i + 8), by
    show (BitVec.ofNat 64 size).toNat = size
    rw [BitVec.toNat_ofNat, Nat.mod_eq_of_lt hs]⟩

/-- C95. `clock()` is passed on as it is where `CLOCKS_PER_SEC` is 10^6, as POSIX demands; where it is larger the factor is 0 and all times are. A reading that fails counts as 2^64 - 1. -/
theorem C95_read (t perSec : Nat) (v : W64) :
    clockRead t 1000000 = BitVec.ofNat 64 t ∧ (1000000 < perSec → clockRead t perSec = 0) ∧ perfRead 8 v = v ∧ (perfRead (-1) v).toNat = 2 ^ 64 - 1 := by
  refine ⟨by simp [clockRead], fun h => ?_, by simp [perfRead], by simp [perfRead]⟩
  rw [clockRead, Nat.div_eq_of_lt h, Nat.mul_zero]
  rfl

/-- C95. For the output of any number of runs with at least one iteration each, one after the other in a file, parse_bench.py reports for every run its parameters and the mean of every column, each under its own name. -/
theorem C95_report (runs : List (Shown × List Timing)) (hne : runs ≠ []) (hrows : ∀ r ∈ runs, r.2 ≠ []) :
    parseBench (runs.flatMap fun r => printRun r.1 r.2) = .ok (runs.map fun r =>
      { instanceLine := instanceText r.1, headerLine := header
        keygen := mean (r.2.map fun t => t.keygen.toNat) / 1000, sign := mean (r.2.map fun t => t.sign.toNat) / 1000, ver := mean (r.2.map fun t => t.verify.toNat) / 1000
        size := mean (r.2.map fun t => t.size.toNat) / 1024, ser := mean (r.2.map fun t => t.serialize.toNat) / 1000, deser := mean (r.2.map fun t => t.deserialize.toNat) / 1000 }) := by
  have e : (runs.flatMap fun r => printRun r.1 r.2) = (runs.map fun r => body r.1 r.2).flatMap fun b => "Instance: ".toList ++ b := by
    rw [List.flatMap_map]
    rfl
  rw [e, parseBench_bodies _ (by
    intro b hb
    obtain ⟨r, -, rfl⟩ := List.mem_map.1 hb
    exact body_not_I r.1 r.2) (by simpa using hne)]
  clear e hne
  induction runs with
  | nil => rfl
  | cons r rs ih =>
    rw [List.map_cons, List.mapM_cons, summarise_body r.1 r.2 (hrows r (by simp)), ih fun x hx => hrows x (by simp [hx])]
    rfl

/-- C95. From the clock to the report, for one run of `n` iterations with sizes `size i`: means of the times that passed. -/
theorem C95_end (s : Shown) (n : Nat) (hn : n ≠ 0) (t : Nat → Nat) (hmono : ∀ k, t k ≤ t (k + 1)) (hd : ∀ k, t (k + 1) - t k < 2 ^ 64) (size : Nat → Nat) (hs : ∀ i, size i < 2 ^ 64) :
    ∃ r, parseBench (printRun s ((List.range n).map fun i => measure (fun k => BitVec.ofNat 64 (t k)) (size i) i)) = .ok [r] ∧ r.instanceLine = instanceText s ∧
      r.keygen = mean ((List.range n).map fun i => t (10 * i + 1) - t (10 * i)) / 1000 ∧ r.sign = mean ((List.range n).map fun i => t (10 * i + 3) - t (10 * i + 2)) / 1000 ∧
      r.ser = mean ((List.range n).map fun i => t (10 * i + 5) - t (10 * i + 4)) / 1000 ∧ r.deser = mean ((List.range n).map fun i => t (10 * i + 7) - t (10 * i + 6)) / 1000 ∧
      r.ver = mean ((List.range n).map fun i => t (10 * i + 9) - t (10 * i + 8)) / 1000 ∧ r.size = mean ((List.range n).map size) / 1024 := by
  have h := C95_report [(s, (List.range n).map fun i => measure (fun k => BitVec.ofNat 64 (t k)) (size i) i)] (by simp) (by simpa using hn)
  rw [List.flatMap_cons, List.flatMap_nil, List.append_nil] at h
  have e := fun i => C95_elapsed t hmono hd (size i) i (hs i)
  have c : ∀ {f g : Nat → Nat}, (∀ i, f i = g i) → (List.range n).map f = (List.range n).map g := fun h => List.map_congr_left fun i _ => h i
  simp only [List.map_cons, List.map_nil, List.map_map] at h
  exact ⟨_, h, rfl, congrArg (mean · / 1000) (c fun i => (e i).1), congrArg (mean · / 1000) (c fun i => (e i).2.1), congrArg (mean · / 1000) (c fun i => (e i).2.2.1),
    congrArg (mean · / 1000) (c fun i => (e i).2.2.2.1), congrArg (mean · / 1000) (c fun i => (e i).2.2.2.2.1), congrArg (mean · / 1024) (c fun i => (e i).2.2.2.2.2)⟩

/-- C95. The script fails on a file with a run without iterations, though `bench -i 0 1` is accepted (C74) and writes such a run; it fails on what `bench_free` writes for wrong `m1` and `m2`, and on an empty file. -/
theorem C95_noRows (runs : List (Shown × List Timing)) (h : ∃ r ∈ runs, r.2 = []) (s : Shown) :
    parseBench (runs.flatMap fun r => printRun r.1 r.2) = .error .thrown ∧ Bench.parseArgs [[45, 105], [48], [49]] = some (1, 0) ∧
    parseBench (printInvalid s) = .error .thrown ∧ parseBench [] = .error .thrown := by
  refine ⟨?_, by decide +kernel, ?_, by decide +kernel⟩
  · have e : (runs.flatMap fun r => printRun r.1 r.2) = (runs.map fun r => body r.1 r.2).flatMap fun b => "Instance: ".toList ++ b := by
      rw [List.flatMap_map]
      rfl
    obtain ⟨r, hr, hr0⟩ := h
    rw [e, parseBench_bodies _ (by
      intro b hb
      obtain ⟨r, -, rfl⟩ := List.mem_map.1 hb
      exact body_not_I r.1 r.2) (by rw [Ne, List.map_eq_nil_iff]; exact List.ne_nil_of_mem hr)]
    apply mapM_thrown
    · intro b hb
      obtain ⟨r, -, rfl⟩ := List.mem_map.1 hb
      by_cases h0 : r.2 = []
      · rw [h0]; exact .inr (summarise_noRows _)
      · exact .inl ⟨_, summarise_body r.1 r.2 h0⟩
    · exact ⟨_, List.mem_map.2 ⟨r, hr, rfl⟩, by rw [hr0]; exact summarise_noRows _⟩
  · have e := parseBench_bodies [instanceText s ++ '\n' :: ("invalid m1 and m2 for chosen seclvl".toList ++ ['\n'])] (by
      intro b hb
      rw [List.mem_singleton.1 hb]
      simp only [List.mem_append, List.mem_cons, List.not_mem_nil, or_false, not_or]
      exact ⟨shown_not_I (shown_instanceText s), by decide, by decide, by decide⟩) (by simp)
    rw [List.flatMap_cons, List.flatMap_nil, List.append_nil] at e
    refine e.trans ?_
    rw [List.mapM_cons]
    have : summarise (instanceText s ++ '\n' :: ("invalid m1 and m2 for chosen seclvl".toList ++ ['\n'])) = .error .thrown := by
      unfold summarise
      rw [linesGo_line _ _ _ fun c hc => shown_break (shown_instanceText s c hc)]
      rfl
    rw [this]
    rfl

/-- Two runs of two and one iterations, printed and evaluated: each number under its own name. -/
example : parseBench ("Instance: N=16, tau=41\nkeygen,sign,verify,size,serialize,deserialize\n1000,2000,3000,2048,5000,6000\n3000,2000,3000,4096,5000,6000\nInstance: x\ny\n1,2,3,4,5,6\n".toList) =
    .ok [⟨"N=16, tau=41".toList, header, 2, 2, 3, 3, 5, 6⟩, ⟨['x'], ['y'], 1 / 1000, 2 / 1000, 3 / 1000, 4 / 1024, 5 / 1000, 6 / 1000⟩] := by decide +kernel

example : printRun ⟨16, 41, 4, 10, 20, 16⟩ [⟨1, 20, 300, 4000, 50000, 19776⟩] =
    "Instance: N=16, tau=41, lambda=4, m1=10, m2=20, AES-Keylen=Seclvl=16\nkeygen,sign,verify,size,serialize,deserialize\n1,20,50000,19776,300,4000\n".toList := by decide +kernel

/-- A clock as in C95_elapsed that overflows during the first key generation. -/
example : (measure (fun k => BitVec.ofNat 64 (2 ^ 64 - 5 + 10 * k)) 19776 0).keygen = 10 := by decide

end Banquet.Props
