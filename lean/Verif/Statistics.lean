import Verif.Machine
/-
The functions that report statistics per arena and per size class, and `malloc_info`. Functions of a process in which the
allocator has been initialised; before that, they report nothing (h_malloc.c:2009, 2079, 2119).
-/
namespace HM

/-- h_malloc.c:2059-2062 `h_mallinfo_narenas`: the region allocator counts as one more arena. -/
def hNarenas (g : Cfg) : Nat := g.nArena + 1

/-- h_malloc.c:2064-2066 `h_mallinfo_nbins`. -/
def hNbins (g : Cfg) : Nat := nClasses g

/-- `struct mallinfo`, the fields set by h_malloc.c:2075-2107. -/
structure ArenaInfo where
  hblkhd : Nat
  uordblks : Nat
  fsmblks : Nat
  deriving DecidableEq

/-- h_malloc.c:2075-2107 `h_mallinfo_arena_info`. The loop (2086-2093) is that of `h_mallinfo` (1978-1985), with totals
that begin at 0. -/
def hArenaInfo (ro : Ro) (arena : Nat) : Prog ArenaInfo :=
  if ro.g.stats then do
    unsealMeta
    let i ← (if arena < ro.g.nArena then do
        let t ← sumClasses ro arena (nClasses ro.g) 0 (0, 0)
        return ⟨t.1, 0, t.2⟩
      else if arena = ro.g.nArena then do
        let n ← readLargeStats ro
        return ⟨n, n, 0⟩
      else return ⟨0, 0, 0⟩ : Prog ArenaInfo)
    sealMeta
    return i
  else return ⟨0, 0, 0⟩

/-- `struct mallinfo`, the fields set by h_malloc.c:2115-2139. -/
structure BinInfo where
  ordblks : Nat
  uordblks : Nat
  fordblks : Nat
  deriving DecidableEq

/-- The statistics of a size class (h_malloc.c:282-287). -/
structure BinStats where
  nmalloc : Nat
  ndalloc : Nat
  slabAllocated : Nat
  allocated : Nat
  deriving DecidableEq

/-- h_malloc.c:2018-2023, 2128-2132: read the statistics of a class with its lock held. -/
def readBin (ro : Ro) (arena cls : Nat) : Prog BinStats := critical ro (.cls arena cls none) fun _ σ e =>
  let c := σ.sc arena cls
  .ok (σ, e, ⟨c.nmalloc, c.ndalloc, c.slabAllocated, c.allocated⟩)

/-- h_malloc.c:2115-2139 `h_mallinfo_bin_info`. The calls to unseal and to seal the metadata are in the wrong order
(2124, 2134). -/
def hBinInfo (ro : Ro) (arena bin : Nat) : Prog BinInfo :=
  if ro.g.stats then
    if arena < ro.g.nArena ∧ bin < nClasses ro.g then do
      sealMeta
      let b ← readBin ro arena bin
      unsealMeta
      return ⟨b.allocated, b.nmalloc, b.ndalloc⟩
    else return ⟨0, 0, 0⟩
  else return ⟨0, 0, 0⟩

/-- What `malloc_info` writes (h_malloc.c:2006-2052), piece by piece. -/
inductive Piece where
  /-- `<malloc version="hardened_malloc-1">` -/
  | head
  /-- `<heap nr="…">` -/
  | heap (arena : Nat)
  /-- `<bin nr="…" size="…"><nmalloc>…</nmalloc><ndalloc>…</ndalloc><slab_allocated>…</slab_allocated><allocated>…</allocated></bin>` -/
  | bin (cls size : Nat) (s : BinStats)
  /-- `</heap>` -/
  | heapEnd
  /-- `<heap nr="…"><allocated_large>…</allocated_large></heap>` -/
  | large (arena allocated : Nat)
  /-- `</malloc>` -/
  | tail
  deriving DecidableEq

/-- The statistics are all 0 (h_malloc.c:2025). -/
def BinStats.none (s : BinStats) : Bool := s.nmalloc == 0 && s.ndalloc == 0 && s.slabAllocated == 0 && s.allocated == 0

/-- h_malloc.c:2015-2034: the inner loop. `out` is what the C library does to write a piece to the stream. -/
def infoClasses (ro : Ro) (out : Piece → Prog Unit) (arena : Nat) : Nat → Nat → List Piece → Prog (List Piece)
  | 0, _, l => return l
  | n + 1, cls, l => do
      let b ← readBin ro arena cls
      if b.none then infoClasses ro out arena n (cls + 1) l
      else do
        let p := Piece.bin cls (ro.g.classSize cls) b
        out p
        infoClasses ro out arena n (cls + 1) (l ++ [p])

/-- h_malloc.c:2012-2037: the outer loop. -/
def infoArenas (ro : Ro) (out : Piece → Prog Unit) : Nat → Nat → List Piece → Prog (List Piece)
  | 0, _, l => return l
  | n + 1, arena, l => do
      out (.heap arena)
      let l ← infoClasses ro out arena (nClasses ro.g) 0 (l ++ [.heap arena])
      out .heapEnd
      infoArenas ro out n (arena + 1) (l ++ [.heapEnd])

/-- h_malloc.c:2000-2055 `h_malloc_info`: whether it succeeds, and what it has written. `out` is what the C library does to
write a piece to the stream; it may call the allocator, to allocate a buffer for the stream. -/
def hMallocInfo (ro : Ro) (out : Piece → Prog Unit) (options : Nat) : Prog (Bool × List Piece) :=
  if options ≠ 0 then do
    setErrno EINVAL
    return (false, [])
  else do
    out .head
    let l ← (if ro.g.stats then do
        unsealMeta
        let l ← infoArenas ro out ro.g.nArena 0 [.head]
        let n ← readLargeStats ro
        out (.large ro.g.nArena n)
        sealMeta
        return l ++ [.large ro.g.nArena n]
      else return [.head] : Prog (List Piece))
    out .tail
    return (true, l ++ [.tail])

end HM
