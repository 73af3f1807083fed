import Verif.Spec.Keccak

/-! The sponge construction of FIPS 202 on bit strings: algorithm 8 with the padding rule of algorithm 9, for any rate that is a multiple of 8. -/

namespace Banquet.Spec

/-- The bits of a byte string, least significant bit of each byte first (FIPS 202, B.1). -/
def bitsOf (bs : Bytes) : List Bool := bs.flatMap fun b => (List.range 8).map fun i => b.getLsbD i

/-- The byte with the given 8 bits, least significant first. -/
def byteOfBits (f : Nat → Bool) : Byte := (List.range 8).foldl (fun b i => if f i then b ||| (1 <<< i) else b) 0

/-- The byte string of a bit string whose length is a multiple of 8. -/
def pack (bits : List Bool) : Bytes := (List.range (bits.length / 8)).map fun i => byteOfBits fun j => bits.getD (8 * i + j) false

/-- `pad10*1(x, m)` (algorithm 9). -/
def pad101 (x m : Nat) : List Bool := [true] ++ List.replicate ((-(m : Int) - 2) % (x : Int)).toNat false ++ [true]

/-- `SPONGE[f, pad10*1, r]` of a bit string: the output as a stream of bytes. -/
def sponge (f : St → St) (r : Nat) (bits : List Bool) : Stream := squeezeStream f (r / 8) (absorb f (r / 8) (pack (bits ++ pad101 r bits.length)))

/-- The first `n` bits of a byte. -/
def lowBits (b : Byte) (n : Nat) : List Bool := (List.range n).map fun i => b.getLsbD i

/-- The bits that a delimited suffix stands for (KeccakHash.h:53-57): those below its most significant 1. -/
def suffixBits (d : Byte) : List Bool := lowBits d (Nat.log2 d.toNat)

end Banquet.Spec
