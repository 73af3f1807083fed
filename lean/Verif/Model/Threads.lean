import Verif.Model.Field

/-! Several threads that call sign and verify. Each call initialises the field (banquet.cpp:294, 783) by writing the globals of field.cpp, which nothing protects. The writes of all threads are interleaved in any order.
Simplification in favour of the code: every write is atomic and seen by all threads at once. (In C++ two threads that write the same variable without synchronisation have undefined behaviour, and the assignment of
the `std::function` in field.cpp:194 is more than one store.) -/

namespace Banquet.Threads

/-- A statement of `init_extension_field` or `init_lifting_lut`. `pow` is the local variable of field.cpp:20. -/
inductive Write where
  /-- `modulus = m` (field.cpp:192, 213, 242, 270) -/
  | modulus (m : W64)
  /-- `reduce = r` (field.cpp:194, 215, 244, 272) -/
  | reduce (r : Reducer)
  /-- `byte_size = n` (field.cpp:195, 216, 245, 273) -/
  | size (n : Nat)
  /-- `lifting_lut[i] = GF2E(v)` (field.cpp:17-18) -/
  | const (i : Nat) (v : W64)
  /-- `pow = generator` (field.cpp:20) -/
  | first (gen : W64)
  /-- `lifting_lut[dst] = lifting_lut[src] + pow` (field.cpp:25) -/
  | copy (dst src : Nat)
  /-- `pow = pow * generator` (field.cpp:27) -/
  | next (gen : W64)

/-- One statement, given the globals and `pow`. -/
def Write.run (w : Write) (G : FieldState) (pow : W64) : FieldState × W64 :=
  match w with
  | .modulus m => ({ G with modulus := m }, pow)
  | .reduce r => ({ G with reducer := r }, pow)
  | .size n => ({ G with byteSize := n }, pow)
  | .const i v => ({ G with lut := G.lut.set i v }, pow)
  | .first gen => (G, gen)
  | .copy dst src => ({ G with lut := G.lut.set dst (gfAdd (G.lut.getD src 0) pow) }, pow)
  | .next gen => (G, G.mul pow gen)

/-- `init_lifting_lut` (field.cpp:16-30). -/
def lutWrites (gen : W64) : List Write :=
  [.const 0 0, .const 1 1, .first gen] ++
    (List.range 7).flatMap fun b => (List.range (1 <<< (b + 1))).map (fun idx => .copy (1 <<< (b + 1) + idx) idx) ++ [.next gen]

/-- `init_extension_field` (field.cpp:188-312). The default case throws and writes nothing. -/
def initWrites (lambda : Nat) : List Write :=
  match lambda with
  | 2 => [.modulus (ofCoeffs [16, 5, 3, 1, 0]), .reduce .r16, .size 2] ++ lutWrites (ofCoeffs [14, 8, 7, 6, 3, 2, 0])
  | 4 => [.modulus (ofCoeffs [32, 7, 3, 2, 0]), .reduce .r32, .size 4] ++ lutWrites (ofCoeffs [30, 23, 21, 18, 14, 13, 11, 9, 7, 6, 5, 4, 3, 1])
  | 5 => [.modulus (ofCoeffs [40, 5, 4, 3, 0]), .reduce .r40, .size 5] ++ lutWrites (ofCoeffs [31, 30, 27, 25, 22, 21, 20, 18, 15, 9, 6, 4, 2])
  | 6 => [.modulus (ofCoeffs [48, 5, 3, 2, 0]), .reduce .r48, .size 6] ++
      lutWrites (ofCoeffs [45, 43, 40, 37, 36, 35, 34, 33, 31, 30, 29, 28, 24, 21, 20, 19, 16, 14, 13, 11, 10, 7, 3, 2])
  | _ => []

/-- A thread that calls sign or verify with instances of field size `lambda` again and again (banquet.cpp:290-1194): the statements left of the current initialisation, `pow`, and how many initialisations it has finished.
While `left` is empty and `finished` is positive, it is past the initialisation of its current call and reads the globals. -/
structure Thread where
  lambda : Nat
  left : List Write
  pow : W64
  finished : Nat

/-- All threads and the globals. -/
structure System where
  globals : FieldState
  threads : List Thread

/-- Threads before their first call, with globals as they are. -/
def start (G : FieldState) (lambdas : List Nat) : System := ⟨G, lambdas.map fun l => ⟨l, initWrites l, 0, 0⟩⟩

/-- Thread `t` executes its next statement; with none left, it enters its next call. -/
def System.step (s : System) (t : Nat) : System :=
  match s.threads[t]? with
  | none => s
  | some ⟨l, [], pow, n⟩ => { s with threads := s.threads.set t ⟨l, initWrites l, pow, n⟩ }
  | some ⟨l, [w], pow, n⟩ => ⟨(w.run s.globals pow).1, s.threads.set t ⟨l, [], (w.run s.globals pow).2, n + 1⟩⟩
  | some ⟨l, w :: w' :: ws, pow, n⟩ => ⟨(w.run s.globals pow).1, s.threads.set t ⟨l, w' :: ws, (w.run s.globals pow).2, n⟩⟩

/-- The threads in the order of a schedule. -/
def System.run (s : System) (schedule : List Nat) : System := schedule.foldl System.step s

end Banquet.Threads
