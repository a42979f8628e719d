import Mathlib.Data.BitVec
/-
The stream cipher ChaCha8 as specified by its author ("ChaCha, a variant of Salsa20", 2008), with 256-bit keys, a 64-bit
nonce and a 64-bit block counter. This specification does not refer to the model of the code.
-/
namespace ChaCha8

/-- A word of the state. -/
abbrev Word := BitVec 32

/-- The state is a matrix: row, column. -/
abbrev State := Fin 4 → Fin 4 → Word

/-- The quarter-round: additions, exclusive ors and rotations by 16, 12, 8, 7. -/
def quarter : Word × Word × Word × Word → Word × Word × Word × Word
  | (a, b, c, d) =>
    let a := a + b
    let d := (d ^^^ a).rotateLeft 16
    let c := c + d
    let b := (b ^^^ c).rotateLeft 12
    let a := a + b
    let d := (d ^^^ a).rotateLeft 8
    let c := c + d
    let b := (b ^^^ c).rotateLeft 7
    (a, b, c, d)

/-- A column round transforms each column. -/
def columnRound (m : State) : State := fun i j =>
  let (a, b, c, d) := quarter (m 0 j, m 1 j, m 2 j, m 3 j)
  match i with
  | 0 => a
  | 1 => b
  | 2 => c
  | 3 => d

/-- A diagonal round transforms each diagonal: the columns of the matrix in which row `i` is rotated by `i`. -/
def diagonalRound (m : State) : State := fun i j => columnRound (fun i j => m i (j + i)) i (j - i)

/-- Eight rounds: a column round and a diagonal round, four times. -/
def rounds (m : State) : State := (diagonalRound ∘ columnRound)^[4] m

/-- The word made of four bytes, the least significant first. -/
def word (b : Nat → BitVec 8) (n : Nat) : Word := b (4 * n + 3) ++ b (4 * n + 2) ++ b (4 * n + 1) ++ b (4 * n)

/-- The input block: the constant "expand 32-byte k", the key, the block counter, the nonce. -/
def input (key nonce : Nat → BitVec 8) (counter : BitVec 64) : State := fun i j =>
  match i with
  | 0 => match j with
    | 0 => 0x61707865#32
    | 1 => 0x3320646e#32
    | 2 => 0x79622d32#32
    | 3 => 0x6b206574#32
  | 1 => word key j
  | 2 => word key (4 + j)
  | 3 => match j with
    | 0 => counter.setWidth 32
    | 1 => (counter >>> 32).setWidth 32
    | 2 => word nonce 0
    | 3 => word nonce 1

/-- A block: the input block and its image under the rounds, added word by word. -/
def block (key nonce : Nat → BitVec 8) (counter : BitVec 64) : State := fun i j =>
  rounds (input key nonce counter) i j + input key nonce counter i j

/-- Byte `n` of the keystream: the blocks for counter 0, 1, 2, …, row by row, the least significant byte of a word first. -/
def keystream (key nonce : Nat → BitVec 8) (n : Nat) : BitVec 8 :=
  (block key nonce (BitVec.ofNat 64 (n / 64)) (Fin.ofNat 4 (n % 64 / 16)) (Fin.ofNat 4 (n % 16 / 4))).extractLsb' (8 * (n % 4)) 8

/-- The keystream for a seed of 40 bytes: 32 bytes of key and 8 bytes of nonce. -/
def ofSeed (seed : List (BitVec 8)) (n : Nat) : BitVec 8 := keystream (fun i => seed.getD i 0) (fun i => seed.getD (32 + i) 0) n

end ChaCha8
