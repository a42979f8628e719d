import Verif.Util
/-
Build configuration (config/default.mk, Makefile, static_asserts of h_malloc.c).
-/
namespace HM

/-- config/default.mk:1-23: every `CONFIG_*` knob read by the C code.
`CONFIG_WERROR`, `CONFIG_NATIVE`, `CONFIG_UBSAN`, `CONFIG_CXX_ALLOCATOR`, `CONFIG_SELF_INIT` do not change the
semantics of the modelled functions and are omitted. The last two fields are no knobs but describe a build with memory tagging. -/
structure Cfg where
  sealMetadata : Bool
  zeroOnFree : Bool
  writeAfterFreeCheck : Bool
  slotRandomize : Bool
  slabCanary : Bool
  slabQRandom : Nat
  slabQQueue : Nat
  extended : Bool
  largeClasses : Bool
  guardSlabsInterval : Nat
  guardSizeDivisor : Nat
  regionQRandom : Nat
  regionQQueue : Nat
  regionQSkip : Nat
  freeSlabsQ : Nat
  classRegionSize : Nat
  nArena : Nat
  stats : Bool
  /-- Built with `HAS_ARM_MTE` (memtag.h:6-12). -/
  mte : Bool
  /-- Memory tagging is not disabled from the start (`ro.is_memtag_disabled`, h_malloc.c:81, 92-94, 2170-2189). -/
  memtag : Bool
  deriving Repr

/-- h_malloc.c:29 `MREMAP_MOVE_THRESHOLD`. -/
notation "MREMAP_MOVE_THRESHOLD" => (33554432 : Nat)

/-- The conditions enforced at compile time (h_malloc.c:33-59, 753, 1497-1501), plus one that is not checked by the code but
without which initialisation aborts: the class region size is a multiple of the page size. -/
structure Cfg.Valid (g : Cfg) : Prop where
  wafZero : g.writeAfterFreeCheck = true → g.zeroOnFree = true
  slabQRandom : g.slabQRandom ≤ 65536
  slabQQueue : g.slabQQueue ≤ 65536
  regionQRandom : g.regionQRandom ≤ 65536
  regionQQueue : g.regionQQueue ≤ 65536
  freeSlabsQ : g.freeSlabsQ < 65535
  guardSlabsInterval : 1 ≤ g.guardSlabsInterval
  guardSizeDivisor : 1 ≤ g.guardSizeDivisor
  classRegionMin : 1048576 ≤ g.classRegionSize
  classRegionMax : g.classRegionSize ≤ 1099511627776
  classRegionPage : g.classRegionSize % PAGE = 0
  skip : g.regionQSkip ≤ MREMAP_MOVE_THRESHOLD
  nArenaMin : 1 ≤ g.nArena
  nArenaMax : g.nArena ≤ 256
  mteZero : g.mte = true → g.zeroOnFree = true
  memtag : g.memtag = true → g.mte = true

/-- config/default.mk. -/
def Cfg.default : Cfg where
  sealMetadata := false
  zeroOnFree := true
  writeAfterFreeCheck := true
  slotRandomize := true
  slabCanary := true
  slabQRandom := 1
  slabQQueue := 1
  extended := true
  largeClasses := true
  guardSlabsInterval := 1
  guardSizeDivisor := 2
  regionQRandom := 256
  regionQQueue := 1024
  regionQSkip := 33554432
  freeSlabsQ := 32
  classRegionSize := 34359738368
  nArena := 4
  stats := false
  mte := false
  memtag := false

/-- config/light.mk. -/
def Cfg.light : Cfg :=
  { Cfg.default with
    writeAfterFreeCheck := false, slotRandomize := false, slabQRandom := 0, slabQQueue := 0,
    guardSlabsInterval := 8 }

theorem Cfg.default_valid : Cfg.default.Valid := by
  constructor <;> decide
theorem Cfg.light_valid : Cfg.light.Valid := by
  constructor <;> decide

/-- h_malloc.c:55-56 `canary_size`. -/
def Cfg.canarySize (g : Cfg) : Nat := if g.slabCanary then 8 else 0

/-- h_malloc.c:27 `SLAB_QUARANTINE`. -/
def Cfg.slabQuarantine (g : Cfg) : Bool := decide (0 < g.slabQRandom) || decide (0 < g.slabQQueue)

/-- h_malloc.c:28 `REGION_QUARANTINE`. -/
def Cfg.regionQuarantine (g : Cfg) : Bool := decide (0 < g.regionQRandom) || decide (0 < g.regionQQueue)

/-- h_malloc.c:130, 135 `max_slab_size_class`. -/
def Cfg.maxSlab (g : Cfg) : Nat := if g.extended then 131072 else 16384

/-- h_malloc.c:131, 136 `MAX_SLAB_SIZE_CLASS_SHIFT`. -/
def Cfg.maxSlabShift (g : Cfg) : Nat := if g.extended then 17 else 14

/-- h_malloc.c:133, 138 `max_empty_slabs_total`. -/
def Cfg.maxEmptySlabsTotal (g : Cfg) : Nat := if g.extended then 131072 else 16384 * 4

/-- h_malloc.c:296 `REAL_CLASS_REGION_SIZE`. -/
def Cfg.realClassRegionSize (g : Cfg) : Nat := g.classRegionSize * 2

end HM
