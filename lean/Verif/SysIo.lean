import Verif.Res
import Mathlib.Data.List.Basic
/-
Reading the seed and writing the error message (random.c:10-25, util.c:15-44). The outcomes of the system calls are a list;
`none` as a result means that the outcomes are used up and the code is still waiting for the next system call.
-/
namespace HM

/-- The outcome of a call of `getrandom`: some bytes (possibly none), EINTR, or another error. -/
inductive SeedRead where
  | bytes (l : List (BitVec 8))
  | eintr
  | error

/-- Memory as a function of the address. -/
abbrev Mem := Nat → BitVec 8

/-- What the kernel does when it delivers bytes: they are stored at `buf`. -/
def Mem.put (m : Mem) (buf : Nat) (l : List (BitVec 8)) : Mem := fun a => if buf ≤ a ∧ a < buf + l.length then l.getD (a - buf) 0 else m a

/-- random.c:10-25 `get_random_seed`: fills `size` bytes at `buf`. The kernel does not deliver more than it was asked for. -/
def getRandomSeed (m : Mem) (buf size : Nat) : List SeedRead → Option (Res (Mem × List SeedRead))
  | [] => if size = 0 then some (.ok (m, [])) else none
  | g :: gs =>
    if size = 0 then some (.ok (m, g :: gs))
    else
      match g with
      | .eintr => getRandomSeed m buf size gs
      | .error => some (.fatal "getrandom failed")
      | .bytes l =>
          if (l.take size).length = 0 then some (.fatal "getrandom failed")
          else getRandomSeed (m.put buf (l.take size)) (buf + (l.take size).length) (size - (l.take size).length) gs

/-- The outcome of a call of `write`: the number of bytes written, EINTR, or another error. -/
inductive Wrote where
  | n (k : Nat)
  | eintr
  | error

/-- util.c:16-30 `write_full`: what has been written, the return value, and the outcomes left; `none`: still waiting for a call of
`write`, the bytes are those written so far. The kernel does not write more than it was asked to. -/
def writeFull (buf : List (BitVec 8)) : List Wrote → List (BitVec 8) × Option (Int × List Wrote)
  | [] => ([], none)
  | .eintr :: ws => if buf.length ≠ 0 then writeFull buf ws else ([], some (0, ws))
  | .error :: ws => ([], some (-1, ws))
  | .n k :: ws =>
      let k := min k buf.length
      if (buf.drop k).length ≠ 0 then
        let r := writeFull (buf.drop k) ws
        (buf.take k ++ r.1, r.2)
      else (buf.take k, some (0, ws))

/-- util.c:38 the prefix "fatal allocator error: ". -/
def fatalPrefix : List (BitVec 8) :=
  [102, 97, 116, 97, 108, 32, 97, 108, 108, 111, 99, 97, 116, 111, 114, 32, 101, 114, 114, 111, 114, 58, 32]

/-- util.c:33-44 `fatal_error` (not Android): what is written to standard error, and whether the process has aborted (it is
waiting for a system call otherwise). `s` is a C string without its terminator. -/
def fatalError (s : List (BitVec 8)) (ws : List Wrote) : List (BitVec 8) × Bool :=
  match writeFull fatalPrefix ws with
  | (o1, none) => (o1, false)
  | (o1, some (r1, ws)) =>
    if r1 ≠ -1 then
      match writeFull s ws with
      | (o2, none) => (o1 ++ o2, false)
      | (o2, some (r2, ws)) =>
        if r2 ≠ -1 then
          match writeFull [10] ws with
          | (o3, r3) => (o1 ++ o2 ++ o3, r3.isSome)
        else (o1 ++ o2, true)
    else (o1, true)

end HM
