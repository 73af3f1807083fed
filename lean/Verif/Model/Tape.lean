import Verif.Model.Xof

/-! Model of tape.h and tape.cpp. -/

namespace Banquet

/-- The stream behind `RandomTape` (tape.cpp:3-12) and `generate_tape` (tape.cpp:42-54). -/
def tapeStream (X : Xof) (seed salt : Bytes) (rep party : Nat) : Stream :=
  X (kindOf (2 * seed.length)) (seed ++ salt ++ le16 rep ++ le16 party)

/-- `RandomTapes::generate_tape` (tape.cpp:42-54): the tape of one party. -/
def genTape (X : Xof) (tapeSize : Nat) (seed salt : Bytes) (rep party : Nat) : Bytes :=
  (tapeStream X seed salt rep party).squeeze 0 tapeSize

/-- One lane of `RandomTapes::generate_4_tapes` (tape.cpp:18-41); `seedSize` is `seed0.size()`. -/
def genTapeLane (X : Xof) (tapeSize seedSize : Nat) (seed salt : Bytes) (rep party : Nat) : Bytes :=
  (X (kindOf (2 * seedSize)) (seed.take seedSize ++ salt ++ le16 rep ++ le16 party)).squeeze 0 tapeSize

/-- `RandomTapes::get_bytes` (tape.cpp:56-60). -/
def tapeBytes (tape : Bytes) (start len : Nat) : Bytes := slice tape start len

end Banquet
