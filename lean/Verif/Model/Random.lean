import Verif.Model.Banquet

/-! Model of randomness.c and of key generation on top of it. The operating system is a parameter: what its calls return and write. Buffers are lists of bytes; a call that delivers `bs` overwrites the
beginning of the buffer. -/

namespace Banquet

/-- The buffer after `bs` has been written to its beginning. -/
def overwrite (buf bs : Bytes) : Bytes := bs ++ buf.drop bs.length

/-- `rand_bytes` with `getrandom` (randomness.c:34-40), for Linux with glibc 2.25 or later: return value and buffer. `ret` is `none` for a negative return value, else the bytes written (at most as many as
asked for). -/
def randGetrandom (ret : Option Bytes) (buf : Bytes) : Bool × Bytes :=
  match ret with
  | none => (false, buf)
  | some bs => (!(decide (bs.length ≠ buf.length)), overwrite buf bs)

/-- `rand_bytes` with `SecRandomCopyBytes` (randomness.c:44-49): success, and the bytes written. -/
def randApple (res : Bool × Bytes) (buf : Bytes) : Bool × Bytes := (res.1, overwrite buf res.2)

/-- `rand_bytes` with `BCryptGenRandom` (randomness.c:112-121): `ULONG` has 32 bits; `gen len` are success and the bytes written when asked for `len` bytes, with `len` converted to `ULONG`. -/
def randWindows (gen : Nat → Bool × Bytes) (buf : Bytes) : Bool × Bytes :=
  if buf.length > 2 ^ 32 - 1 then (false, buf)
  else
    let res := gen (buf.length % 2 ^ 32)
    (res.1, overwrite buf res.2)

/-- What `open` returns: a file, -1 with `EINTR`, -1 with another error. -/
inductive OpenResult where
  | file
  | interrupted
  | failed

/-- What `read` returns: bytes, -1 with `EAGAIN` or `EINTR`, -1 with another error. -/
inductive ReadResult where
  | data (bs : Bytes)
  | again
  | failed

/-- The loop around `open` (randomness.c:70-77): false if the function returns 0. -/
def openLoop (o : Nat → OpenResult) : Nat → Nat → M Bool
  | 0, _ => .error .fuel
  | fuel + 1, i =>
    match o i with
    | .file => .ok true
    | .interrupted => openLoop o fuel (i + 1)
    | .failed => .ok false

/-- The loop around `read` (randomness.c:91-104). The buffer is split at `dst` into what has been written and the remaining `len` bytes; `read` writing more than asked for would be out of bounds. -/
def readLoop (r : Nat → ReadResult) : Nat → Nat → Bytes → Bytes → M (Bool × Bytes)
  | _, _, done, [] => .ok (true, done)
  | 0, _, _, _ :: _ => .error .fuel
  | fuel + 1, i, done, b :: rest =>
    match r i with
    | .again => readLoop r fuel (i + 1) done (b :: rest)
    | .failed => .ok (false, done ++ b :: rest)
    | .data bs =>
      if (b :: rest).length < bs.length then .error .ub
      else readLoop r fuel (i + 1) (done ++ bs) ((b :: rest).drop bs.length)

/-- `rand_bytes` with `/dev/urandom` (randomness.c:69-108), for Linux and macOS otherwise: `ready` says whether `ioctl(fd, RNDGETENTCNT, …)` succeeds (true where it is not called). -/
def randUrandom (o : Nat → OpenResult) (ready : Bool) (r : Nat → ReadResult) (fuel : Nat) (buf : Bytes) : M (Bool × Bytes) := do
  let opened ← openLoop o fuel 0
  if !opened then .ok (false, buf)
  else if !ready then .ok (false, buf)
  else readLoop r fuel 0 [] buf

/-- The loop of `banquet_keygen` (banquet.cpp:265-282): `w i` are the bytes that the two calls of `rand_bytes` write in iteration `i`, whatever they return. -/
def keygenLoop (I : Instance) (w : Nat → Bytes × Bytes) : Nat → Nat → Bytes → Bytes → M (Bytes × Bytes)
  | 0, _, _, _ => .error .fuel
  | fuel + 1, i, key, pt =>
    let key := overwrite key (w i).1
    let pt := overwrite pt (w i).2
    if I.aes.keySize = 16 ∨ I.aes.keySize = 24 ∨ I.aes.keySize = 32 then
      match aesPlain I.aes.keySize key pt with
      | some ct => .ok (key, pt ++ ct)
      | none => keygenLoop I w fuel (i + 1) key pt
    else .error .thrown

/-- `banquet_keygen` (banquet.cpp:260-288): the vectors start with zeros (banquet.cpp:261-263). -/
def keygenRand (I : Instance) (w : Nat → Bytes × Bytes) (fuel : Nat) : M (Bytes × Bytes) :=
  keygenLoop I w fuel 0 (List.replicate I.aes.keySize 0) (List.replicate I.ctSize 0)

end Banquet
