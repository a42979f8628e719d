import Verif.Facts
/-
Memory tagging (HAS_ARM_MTE): the tags of the slots of slabs and of memory, as an addition to the sequential machine of Seq.lean.

The machine underneath is run with tagging enabled all the time (`TReach`), so that it clears slots when they are allocated and freed, and neither writes nor checks canaries. What is added are the tags.

Simplifications. A call changes the tags in one step. What becomes of the tags when tagging is disabled is not described here (Seq.lean describes calls in both modes, apart from tags).
Pointers are given without their tags, and the tag of a pointer that a call returns is given separately; all functions that take a pointer remove the tag first
(`untag_pointer`, `untag_const_pointer`, h_malloc.c:1520, 1680, 1705, 1765).
-/
namespace HM

/-! ### Pointers (memtag.h) -/

/-- memtag.h:14-21, 23-30 `untag_pointer`, `untag_const_pointer`. -/
def untagPointer (p : Nat) : Nat := p &&& (2 ^ 64 - 1) >>> 8

/-- memtag.h:32-39 `set_pointer_tag`. -/
def setPointerTag (p tag : Nat) : Nat := tag <<< 56 ||| untagPointer p

/-- memtag.h:41-48 `get_pointer_tag`. -/
def getPointerTag (p : Nat) : Nat := p >>> 56 &&& 0xf

/-! ### Arrays of 4-bit numbers (util.h) -/

/-- util.h:63-68 `u4_arr_set`. -/
def u4ArrSet (arr : Nat → BitVec 8) (idx : Nat) (val : BitVec 8) : Nat → BitVec 8 :=
  let off := idx >>> 1
  let shift := (idx &&& 1) <<< 2
  let mask : BitVec 8 := 0xf0#8 >>> shift
  fun i => if i = off then (arr off &&& mask) ||| (val <<< shift) else arr i

/-- util.h:70-74 `u4_arr_get`. -/
def u4ArrGet (arr : Nat → BitVec 8) (idx : Nat) : BitVec 8 :=
  let off := idx >>> 1
  let shift := (idx &&& 1) <<< 2
  (arr off >>> shift) &&& 0xf#8

/-! ### Instructions (arm_mte.h) -/

/-- arm_mte.h:9-11 `arm_mte_create_random_tag`, the instruction IRG: some tag that is excluded neither by the mask nor by the system (`sys`, set by the prctl mentioned in memtag.h:9), or 0 if there
is none. `r` is the random choice. -/
def insertRandomTag (sys : Nat → Bool) (mask r : Nat) : Nat :=
  let allowed := (List.range 16).filter fun t => !mask.testBit t && !sys t
  allowed.getD (r % allowed.length) 0

/-- Memory with tags: one tag for each granule of 16 bytes. -/
structure TMem where
  tag : Nat → Nat
  byte : Nat → BitVec 8

/-- The aligned line of `n` bytes (a multiple of 16) that contains the address gets the tag and is cleared: STZG for `n` = 16, DC GZVA for the size of a line. -/
def TMem.fill (m : TMem) (cur n tag : Nat) : TMem :=
  let a := cur - cur % n
  ⟨fun g => if a / 16 ≤ g ∧ g < (a + n) / 16 then tag else m.tag g, fun x => if a ≤ x ∧ x < a + n then 0#8 else m.byte x⟩

/-- arm_mte.h:60-63 (label 1) for `step` = 16, 69-73 (label 2) for `step` = the size of a line: fill, advance, repeat while below `next`. -/
def fillDo (step tag next cur : Nat) (m : TMem) : Nat × TMem :=
  let m' := m.fill cur step tag
  if cur + step < next ∧ 0 < step then fillDo step tag next (cur + step) m' else (cur + step, m')
termination_by next - cur

/-- arm_mte.h:78-82 (label 3). -/
def fillWhile (tag fin cur : Nat) (m : TMem) : TMem := if fin ≤ cur then m else fillWhile tag fin (cur + 16) (m.fill cur 16 tag)
termination_by fin - cur

/-- arm_mte.h:26-90 `arm_mte_tag_and_clear_mem`. `begin` is the address without its tag (the tag is in the upper bits of all addresses that are compared, and its highest bit is
zero, so that it does not matter for the comparisons); `dcz` is the content of the register `dczid_el0`. -/
def tagAndClearMem (dcz tag begin len : Nat) (m : TMem) : TMem :=
  let fin := begin + len
  let lineSize := 4 <<< (dcz &&& 15)
  if dcz.testBit 4 ∨ fin - begin < lineSize <<< 1 then fillWhile tag fin begin m
  else
    let lineMask := lineSize - 1
    let (cur, m) := fillDo 16 tag (begin ||| lineMask) begin m
    let (cur, m) := fillDo lineSize tag (fin - fin % lineSize) cur m
    fillWhile tag fin cur m

/-! ### Slots (h_malloc.c) -/

/-- `arr a c i` is `arm_mte_tags` of slab `i` of class `c` of arena `a` (h_malloc.c:112-123), `tag` the tags of the granules of memory, `mte` says whether a page is mapped with
PROT_MTE (without it the tags of memory are not checked). -/
structure Tags where
  arr : Nat → Nat → Nat → Nat → BitVec 8
  tag : Nat → Nat
  mte : Nat → Bool

/-- After the initialisation: metadata is zero, and the slab region has been mapped by `memory_map_mte` (h_malloc.c:1245-1247, memory.c:33-42). -/
def Tags.init (ro : Ro) : Tags := ⟨fun _ _ _ _ => 0#8, fun _ => 0, fun pg => ro.inSlab (pg * PAGE)⟩

/-- The slab and the slot of a pointer that points to the beginning of a slot of class `c` of arena `a` (h_malloc.c:453-461, 791-793, see `getMetadata` and `slotIndex`). -/
def Ro.slotOf (ro : Ro) (p : Nat) : Nat × Nat :=
  let (a, c) := ro.sizeClassOf p
  let off := p - ro.regionStart a c
  (off / ro.g.slabSize c, off % ro.g.slabSize c / ro.g.slotSize c)

/-- h_malloc.c:577-586: the mask of excluded tags. -/
def exclusionMask (arr : Nat → BitVec 8) (slot : Nat) : Nat :=
  1 <<< 0 ||| 1 <<< (u4ArrGet arr slot).toNat ||| 1 <<< (u4ArrGet arr (slot + 1)).toNat ||| 1 <<< (u4ArrGet arr (slot + 2)).toNat

/-- The granules of `n` bytes from `p` on get the tag (`tagAndClearMem`, see `tagAndClearMem_eq`). -/
def Tags.setMem (T : Tags) (p n tag : Nat) : Tags := { T with tag := fun g => if p / 16 ≤ g ∧ g < (p + n) / 16 then tag else T.tag g }

/-- h_malloc.c:567-595 `tag_and_clear_slab_slot`, for the slot that `p` points to. Returns the tag of the pointer that is returned. -/
def Tags.tagSlot (ro : Ro) (sys : Nat → Bool) (r : Nat) (T : Tags) (p : Nat) : Tags × Nat :=
  let (a, c) := ro.sizeClassOf p
  let (i, k) := ro.slotOf p
  let tag := insertRandomTag sys (exclusionMask (T.arr a c i) k) r
  let T := T.setMem p (ro.g.slotSize c) tag
  ({ T with arr := fun a' c' i' => if a' = a ∧ c' = c ∧ i' = i then u4ArrSet (T.arr a c i) (k + 1) (BitVec.ofNat 8 tag) else T.arr a' c' i' }, tag)

/-- h_malloc.c:623-631, 661-668, 688-695, 716-724 of `allocate_small`: a new block gets a tag unless its size is 0. A large block has the tag 0 (its memory is not mapped with PROT_MTE). -/
def Tags.alloc (ro : Ro) (sys : Nat → Bool) (r : Nat) (T : Tags) (p : Nat) : Tags × Nat :=
  if ro.inSlab p ∧ ro.g.classSize (ro.sizeClassOf p).2 ≠ 0 then T.tagSlot ro sys r p else (T, 0)

/-- h_malloc.c:803-813 of `deallocate_small`: the memory gets the reserved tag; `arm_mte_tags` is not updated. -/
def Tags.free (ro : Ro) (T : Tags) (p : Nat) : Tags :=
  if ro.inSlab p ∧ ro.g.classSize (ro.sizeClassOf p).2 ≠ 0 then T.setMem p (ro.g.slotSize (ro.sizeClassOf p).2) 0 else T

/-- memory.c:45-52 `memory_map_fixed`, called when an empty slab is released (h_malloc.c:893 in `deallocate_small`, :1898 in `malloc_trim`): the new mapping is without PROT_MTE, and later calls of `mprotect` do not
change this (h_malloc.c:643, :331). Nothing else takes the access to pages of the slab region away, which is how the pages are recognised here. (`memory_purge`, used when this fails and in `malloc_trim`, gives memory of free slots back, whose tags are 0 before and after it.) -/
def Tags.remap (T : Tags) (before after : Nat → Prot) : Tags :=
  let gone (pg : Nat) : Bool := before pg = .rw && after pg = .none
  { T with mte := fun pg => T.mte pg && !gone pg, tag := fun g => if gone (g * 16 / PAGE) then 0 else T.tag g }

/-- The block that a call frees. -/
def Ev.freed : Ev → Option Nat
  | .call _ (.free p) _ => if p = 0 then none else some p
  | .call _ (.freeSized p _) _ => if p = 0 then none else some p
  | .call _ (.realloc p _) r => match r.block with | some q => if q = p ∨ p = 0 then none else some p | none => none
  | _ => none

/-- What an event does to the tags: first a block is allocated (`realloc` allocates before it frees), then one is freed. Returns the tag of the pointer that the call returns. -/
def Tags.step (ro : Ro) (sys : Nat → Bool) (r : Nat) (T : Tags) (e : Ev) (before after : Nat → Prot) : Tags × Nat :=
  let (T, tag) := (e.created.map (T.alloc ro sys r)).getD (T, 0)
  let T := (e.freed.map (T.free ro)).getD T
  (T.remap before after, tag)

/-- Tagging is enabled during the action. -/
def Act.tagsOn : Act → Prop
  | .call _ _ chs => ∀ n, (chs n).memtag = true
  | _ => True

/-- The reachable states with memory tagging, which is never disabled. The history contains, for each event, the tag of the pointer returned (if it returns one).
Others may map pages meanwhile, as in `Reach`; the tags of their memory are not kept. -/
inductive TReach (g : Cfg) (ro : Ro) (ar : Nat → Nat) (calm : Bool) (D : Client) (sys : Nat → Bool) : List (Ev × Nat) → Sys → Tags → Prop where
  | init {σ : St} {tl : Nat → Tl} (hmt : g.memtag = true) (h : Initialised g ro σ) (htl : ∀ t, (tl t).unsealed = false) : TReach g ro ar calm D sys [] ⟨σ, tl⟩ (Tags.init ro)
  | step {h : List (Ev × Nat)} {s s' : Sys} {T : Tags} {a : Act} {e : Ev} (r : Nat) (hr : TReach g ro ar calm D sys h s T) (ha : a.Ok calm) (hon : a.tagsOn) (hd : D (h.map Prod.fst) s a)
      (hs : s.step ro ar a = .ok (s', e)) :
      TReach g ro ar calm D sys ((e, (T.step ro sys r e s.σ.vm.prot s'.σ.vm.prot).2) :: h) s' (T.step ro sys r e s.σ.vm.prot s'.σ.vm.prot).1
  | other {h : List (Ev × Nat)} {s : Sys} {T : Tags} (hr : TReach g ro ar calm D sys h s T) (pg : Nat) (pr : Prot) (data : Nat → BitVec 8)
      (hp : Foreign (h.map Prod.fst) s.σ.vm pg) :
      TReach g ro ar calm D sys ((.foreign pg (pr != .unmapped), 0) :: h) { s with σ := { s.σ with vm := s.σ.vm.foreign pg pr data } } T

end HM
