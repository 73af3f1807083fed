import Verif.Spec.Snp

/-! The sponge functions of the model with unbounded arithmetic, on a state of 200 bytes and over any permutation `f`: an intermediate level between the model and FIPS 202. -/

namespace Banquet.Ideal

open Spec

abbrev KState := St

structure Sponge where
  state : KState
  rate : Nat
  idx : Nat
  squeezing : Bool
  suffix : Byte

def hashInit (k : ShakeKind) : Sponge := ⟨Vector.replicate 200 0, kindRate k, 0, false, 0x1F⟩

def absorbLoop (f : KState → KState) : Nat → Sponge → Bytes → Sponge
  | 0, s, _ => s
  | fuel + 1, s, data =>
    if data = [] then s
    else if s.idx = 0 ∧ s.rate ≤ data.length then
      let n := data.length / s.rate
      absorbLoop f fuel { s with state := absorbFull f s.rate n s.state data } (data.drop (n * s.rate))
    else
      let part := if data.length + s.idx > s.rate then s.rate - s.idx else data.length
      let st := addBytes s.state (data.take part) s.idx
      if s.idx + part = s.rate then absorbLoop f fuel { s with state := f st, idx := 0 } (data.drop part)
      else absorbLoop f fuel { s with state := st, idx := s.idx + part } (data.drop part)

def hashUpdate (f : KState → KState) (s : Sponge) (data : Bytes) : Sponge :=
  if s.squeezing then s else absorbLoop f data.length s data

def absorbLast (f : KState → KState) (s : Sponge) (delim : Byte) : Sponge :=
  if delim = 0 ∨ s.squeezing then s
  else
    let st := addByte s.state delim s.idx
    let st := if delim ≥ 0x80 ∧ s.idx = s.rate - 1 then f st else st
    let st := f (addByte st 0x80 (s.rate - 1))
    { s with state := st, idx := 0, squeezing := true }

def hashFinal (f : KState → KState) (s : Sponge) : Sponge := absorbLast f s s.suffix

def squeezeBlocks (f : KState → KState) (rate : Nat) : Nat → KState → KState × Bytes
  | 0, s => (s, [])
  | n + 1, s =>
    let s := f s
    let (s', out) := squeezeBlocks f rate n s
    (s', extractBytes s 0 rate ++ out)

def squeezeLoop (f : KState → KState) : Nat → Sponge → Nat → Sponge × Bytes
  | 0, s, _ => (s, [])
  | fuel + 1, s, len =>
    if len = 0 then (s, [])
    else if s.idx = s.rate ∧ s.rate ≤ len then
      let n := len / s.rate
      let (st, out) := squeezeBlocks f s.rate n s.state
      let (s', out') := squeezeLoop f fuel { s with state := st } (len - n * s.rate)
      (s', out ++ out')
    else
      let s := if s.idx = s.rate then { s with state := f s.state, idx := 0 } else s
      let part := if len + s.idx > s.rate then s.rate - s.idx else len
      let (s', out') := squeezeLoop f fuel { s with idx := s.idx + part } (len - part)
      (s', extractBytes s.state s.idx part ++ out')

def hashSqueeze (f : KState → KState) (s : Sponge) (len : Nat) : Sponge × Bytes :=
  let s := if s.squeezing then s else absorbLast f s 0x01
  squeezeLoop f len s len

/-! ## 4-way -/

structure Sponge4 where
  state : Fin 4 → KState
  rate : Nat
  idx : Nat
  squeezing : Bool
  suffix : Byte

def hashInit4 (k : ShakeKind) : Sponge4 := ⟨fun _ => Vector.replicate 200 0, kindRate k, 0, false, 0x1F⟩

def absorbBlocks4 (f : KState → KState) (rate : Nat) : Nat → (Fin 4 → KState) → (Fin 4 → Bytes) → (Fin 4 → KState)
  | 0, s, _ => s
  | n + 1, s, data => absorbBlocks4 f rate n (fun l => f (addBytes (s l) ((data l).take rate) 0)) (fun l => (data l).drop rate)

def absorbLoop4 (f : KState → KState) : Nat → Sponge4 → (Fin 4 → Bytes) → Nat → Sponge4
  | 0, s, _, _ => s
  | fuel + 1, s, data, len =>
    if len = 0 then s
    else if s.idx = 0 ∧ s.rate ≤ len then
      let n := len / s.rate
      absorbLoop4 f fuel { s with state := absorbBlocks4 f s.rate n s.state data } (fun l => (data l).drop (n * s.rate)) (len - n * s.rate)
    else
      let part := if len + s.idx > s.rate then s.rate - s.idx else len
      let st := fun l => addBytes (s.state l) ((data l).take part) s.idx
      if s.idx + part = s.rate then
        absorbLoop4 f fuel { s with state := fun l => f (st l), idx := 0 } (fun l => (data l).drop part) (len - part)
      else absorbLoop4 f fuel { s with state := st, idx := s.idx + part } (fun l => (data l).drop part) (len - part)

def hashUpdate4 (f : KState → KState) (s : Sponge4) (data : Fin 4 → Bytes) (len : Nat) : Sponge4 :=
  if s.squeezing then s else absorbLoop4 f len s data len

def absorbLast4 (f : KState → KState) (s : Sponge4) (delim : Byte) : Sponge4 :=
  if delim = 0 ∨ s.squeezing then s
  else
    let st := fun l => addByte (s.state l) delim s.idx
    let st := if delim ≥ 0x80 ∧ s.idx = s.rate - 1 then fun l => f (st l) else st
    let st := fun l => f (addByte (st l) 0x80 (s.rate - 1))
    { s with state := st, idx := 0, squeezing := true }

def hashFinal4 (f : KState → KState) (s : Sponge4) : Sponge4 := absorbLast4 f s s.suffix

def squeezeBlocks4 (f : KState → KState) (rate : Nat) : Nat → (Fin 4 → KState) → (Fin 4 → KState) × (Fin 4 → Bytes)
  | 0, s => (s, fun _ => [])
  | n + 1, s =>
    let s := fun l => f (s l)
    let r := squeezeBlocks4 f rate n s
    (r.1, fun l => extractBytes (s l) 0 rate ++ r.2 l)

def squeezeLoop4 (f : KState → KState) : Nat → Sponge4 → Nat → Sponge4 × (Fin 4 → Bytes)
  | 0, s, _ => (s, fun _ => [])
  | fuel + 1, s, len =>
    if len = 0 then (s, fun _ => [])
    else if s.idx = s.rate ∧ s.rate ≤ len then
      let n := len / s.rate
      let r := squeezeBlocks4 f s.rate n s.state
      let r' := squeezeLoop4 f fuel { s with state := r.1 } (len - n * s.rate)
      (r'.1, fun l => r.2 l ++ r'.2 l)
    else
      let s := if s.idx = s.rate then { s with state := fun l => f (s.state l), idx := 0 } else s
      let part := if len + s.idx > s.rate then s.rate - s.idx else len
      let r' := squeezeLoop4 f fuel { s with idx := s.idx + part } (len - part)
      (r'.1, fun l => extractBytes (s.state l) s.idx part ++ r'.2 l)

def hashSqueeze4 (f : KState → KState) (s : Sponge4) (len : Nat) : Sponge4 × (Fin 4 → Bytes) :=
  let s := if s.squeezing then s else absorbLast4 f s 0x01
  squeezeLoop4 f len s len

end Banquet.Ideal
