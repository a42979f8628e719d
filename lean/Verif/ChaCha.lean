import Mathlib.Data.BitVec
/-
The stream cipher (chacha.c).
-/
namespace HM

/-- Sixteen 32-bit words: `chacha_ctx` (chacha.h:9-11) and the local variables `x0` … `x15`. -/
structure Words where
  (w0 w1 w2 w3 w4 w5 w6 w7 w8 w9 w10 w11 w12 w13 w14 w15 : BitVec 32)

/-- chacha.c:16-17 `ROTL32`. -/
def rotl32 (v : BitVec 32) (n : Nat) : BitVec 32 := v <<< n ||| v >>> (32 - n)

/-- chacha.c:19-23 `U8TO32_LITTLE`, of the four bytes at offset `o` (bytes outside of the array do not occur). -/
def u8to32 (p : List (BitVec 8)) (o : Nat) : BitVec 32 :=
  (p.getD o 0).setWidth 32 ||| (p.getD (o + 1) 0).setWidth 32 <<< 8 ||| (p.getD (o + 2) 0).setWidth 32 <<< 16 |||
    (p.getD (o + 3) 0).setWidth 32 <<< 24

/-- chacha.c:25-31 `U32TO8_LITTLE`. -/
def u32to8 (v : BitVec 32) : List (BitVec 8) :=
  [v.setWidth 8, (v >>> 8).setWidth 8, (v >>> 16).setWidth 8, (v >>> 24).setWidth 8]

/-- chacha.c:38-42 `QUARTERROUND`. -/
def quarterRound (a b c d : BitVec 32) : BitVec 32 × BitVec 32 × BitVec 32 × BitVec 32 :=
  let a := a + b; let d := rotl32 (d ^^^ a) 16
  let c := c + d; let b := rotl32 (b ^^^ c) 12
  let a := a + b; let d := rotl32 (d ^^^ a) 8
  let c := c + d; let b := rotl32 (b ^^^ c) 7
  (a, b, c, d)

/-- chacha.c:44 `sigma`: "expand 32-byte k". -/
def sigma : List (BitVec 8) := [101, 120, 112, 97, 110, 100, 32, 51, 50, 45, 98, 121, 116, 101, 32, 107]

/-- chacha.c:46-59 `chacha_keysetup`. -/
def keySetup (x : Words) (k : List (BitVec 8)) : Words :=
  { x with
    w0 := u8to32 sigma 0, w1 := u8to32 sigma 4, w2 := u8to32 sigma 8, w3 := u8to32 sigma 12
    w4 := u8to32 k 0, w5 := u8to32 k 4, w6 := u8to32 k 8, w7 := u8to32 k 12
    w8 := u8to32 k 16, w9 := u8to32 k 20, w10 := u8to32 k 24, w11 := u8to32 k 28 }

/-- chacha.c:61-66 `chacha_ivsetup`. -/
def ivSetup (x : Words) (iv : List (BitVec 8)) : Words :=
  { x with w12 := 0, w13 := 0, w14 := u8to32 iv 0, w15 := u8to32 iv 4 }

/-- chacha.c:115-122: one iteration of the loop over the rounds. -/
def twoRounds (x : Words) : Words :=
  let (x0, x4, x8, x12) := quarterRound x.w0 x.w4 x.w8 x.w12
  let (x1, x5, x9, x13) := quarterRound x.w1 x.w5 x.w9 x.w13
  let (x2, x6, x10, x14) := quarterRound x.w2 x.w6 x.w10 x.w14
  let (x3, x7, x11, x15) := quarterRound x.w3 x.w7 x.w11 x.w15
  let (x0, x5, x10, x15) := quarterRound x0 x5 x10 x15
  let (x1, x6, x11, x12) := quarterRound x1 x6 x11 x12
  let (x2, x7, x8, x13) := quarterRound x2 x7 x8 x13
  let (x3, x4, x9, x14) := quarterRound x3 x4 x9 x14
  ⟨x0, x1, x2, x3, x4, x5, x6, x7, x8, x9, x10, x11, x12, x13, x14, x15⟩

/-- chacha.c:114-123: `for (unsigned i = rounds; i > 0; i -= 2)`, for even `i`. -/
def roundsLoop : Nat → Words → Words
  | 0, x => x
  | 1, x => x
  | i + 2, x => roundsLoop i (twoRounds x)

/-- chacha.c:98-139: the words of one block; chacha.c:8 `rounds`. -/
def blockWords (j : Words) : Words :=
  let x := roundsLoop 8 j
  ⟨x.w0 + j.w0, x.w1 + j.w1, x.w2 + j.w2, x.w3 + j.w3, x.w4 + j.w4, x.w5 + j.w5, x.w6 + j.w6, x.w7 + j.w7,
   x.w8 + j.w8, x.w9 + j.w9, x.w10 + j.w10, x.w11 + j.w11, x.w12 + j.w12, x.w13 + j.w13, x.w14 + j.w14, x.w15 + j.w15⟩

/-- chacha.c:147-162: the bytes of one block. -/
def blockBytes (j : Words) : List (BitVec 8) :=
  let x := blockWords j
  u32to8 x.w0 ++ u32to8 x.w1 ++ u32to8 x.w2 ++ u32to8 x.w3 ++ u32to8 x.w4 ++ u32to8 x.w5 ++ u32to8 x.w6 ++ u32to8 x.w7 ++
    u32to8 x.w8 ++ u32to8 x.w9 ++ u32to8 x.w10 ++ u32to8 x.w11 ++ u32to8 x.w12 ++ u32to8 x.w13 ++ u32to8 x.w14 ++ u32to8 x.w15

/-- chacha.c:141-145: the 64-bit counter in words 12 and 13. -/
def nextBlock (j : Words) : Words :=
  let j12 := j.w12 + 1
  if j12 = 0 then { j with w12 := j12, w13 := j.w13 + 1 } else { j with w12 := j12 }

/-- chacha.c:93-176: the loop over the blocks. -/
def keystreamLoop (j : Words) (bytes : Nat) : Words × List (BitVec 8) :=
  if bytes ≤ 64 then (nextBlock j, (blockBytes j).take bytes)
  else
    let r := keystreamLoop (nextBlock j) (bytes - 64)
    (r.1, blockBytes j ++ r.2)
termination_by bytes

/-- chacha.c:68-177 `chacha_keystream_bytes`: the context afterwards and the bytes stored. -/
def keystreamBytes (x : Words) (bytes : Nat) : Words × List (BitVec 8) :=
  if bytes = 0 then (x, []) else keystreamLoop x bytes

end HM
