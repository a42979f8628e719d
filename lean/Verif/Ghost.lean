import Verif.Machine
import Verif.Cell
import Verif.TableLemmas
import Verif.SmallFree
/-
Ownership of pages and blocks, the global invariant, and the logic used to prove that every action keeps it: a program
run by one thread is interleaved with arbitrary actions of other threads (rely-guarantee).
-/
namespace HM

/-- Rounding up to a multiple of the page size, without wrap. -/
def pageUp (n : Nat) : Nat := (n + 4095) / PAGE * PAGE

/-- Who a page belongs to: the slab region, a registered region (by its address), an entry of one of the two region
quarantines, a mapping a thread is working on, or nobody. -/
inductive Owner where
  | none
  | slab
  | reg (p : Nat)
  | qr (i : Nat)
  | qq (i : Nat)
  | held (t : Nat)
  deriving DecidableEq

/-- Who may use a block: nobody (it is not allocated), the application, or a call in progress in thread `t`. -/
inductive Holder where
  | nobody
  | app
  | thr (t : Nat)
  deriving DecidableEq

/-- Ghost state: not part of the code, used to state the invariant. `eff p` is the size of region `p` while it is being
shrunk, `untracked` the total size of regions created without being counted in the statistics, `frees` the number of
deallocations in each class, `pushes` the number of regions put into the quarantine, and `env` is a constant: whether the
kernel never refuses memory, and whether memory tagging is enabled (if this is known). -/
structure Gh where
  own : Nat → Owner
  blk : Nat → Holder
  eff : Nat → Option Nat
  loc : Nat → Nat → Nat → Loc
  ql : Nat → Nat → Nat → Nat → QLoc
  untracked : Nat
  frees : Nat → Nat → Nat
  pushes : Nat
  env : Bool × Option Bool

/-- The kernel never refuses memory. -/
abbrev Gh.calm (G : Gh) : Bool := G.env.1

/-- Whether memory tagging is enabled during all actions, if this is known. -/
abbrev Gh.tags (G : Gh) : Option Bool := G.env.2

/-- State and ghost state. -/
structure World where
  σ : St
  G : Gh

/-- What initialisation guarantees about `ro` (h_malloc.c:1252-1286; see Init.lean). -/
structure RoOk (ro : Ro) : Prop where
  valid : ro.g.Valid
  freeQ : 1 ≤ ro.g.freeSlabsQ
  mod : ro.slabStart % PAGE = 0
  lo : PAGE ≤ ro.slabStart
  hi : ro.slabEnd ≤ ADDR_END
  gapMod : ∀ a c, a < ro.g.nArena → c < nClasses ro.g → ro.gap a c % PAGE = 0
  gapLo : ∀ a c, a < ro.g.nArena → c < nClasses ro.g → PAGE ≤ ro.gap a c
  gapHi : ∀ a c, a < ro.g.nArena → c < nClasses ro.g →
    ro.gap a c + ro.g.classRegionSize + PAGE ≤ ro.g.realClassRegionSize

/-- `p` is the live small allocation in slot `k` of slab `i` of class `c` of arena `a`. -/
def IsSmall (ro : Ro) (σ : St) (p a c i k : Nat) : Prop :=
  a < ro.g.nArena ∧ c < nClasses ro.g ∧ p = slotAddr ro.g (ro.regionStart a c) c i k ∧ (σ.sc a c).live i k = true

/-- A region entry is well formed. -/
structure RegOk (r : RegionMeta) : Prop where
  pmod : r.p % PAGE = 0
  gmod : r.guard % PAGE = 0
  gpos : PAGE ≤ r.guard
  lo : r.guard + PAGE ≤ r.p
  size : 0 < r.size
  hi : r.p + pageUp r.size + r.guard ≤ ADDR_END
  big : 16384 < r.size → r.size % PAGE = 0

/-- The size of a region, taking into account that it may be being shrunk. -/
def Gh.effSize (G : Gh) (r : RegionMeta) : Nat := (G.eff r.p).getD r.size

/-- A quarantine entry is well formed. -/
structure QEntryOk (e : Nat × Nat) : Prop where
  mod : e.1 % PAGE = 0
  lo : PAGE ≤ e.1
  size : 0 < e.2

/-- The global invariant. -/
structure GInv (ro : Ro) (w : World) : Prop where
  cls : ∀ a c, a < ro.g.nArena → c < nClasses ro.g →
    ∃ P E F, SCInv ro.g (ro.regionStart a c) c (w.σ.sc a c) P E F (w.G.loc a c) (w.G.ql a c)
  clsVm : ∀ a c, a < ro.g.nArena → c < nClasses ro.g → SCVm ro.g (ro.regionStart a c) c (w.G.loc a c) w.σ.vm
  gaps : ∀ pg, w.G.own pg = .slab → (∀ a c x, a < ro.g.nArena → c < nClasses ro.g →
    inRange (ro.regionStart a c) (ro.g.metaMax c * ro.g.slabSize c) x → x / PAGE ≠ pg) → w.σ.vm.prot pg = .none
  rt : w.σ.rt.Inv hashPage
  reg : ∀ r, w.σ.rt.Has r → RegOk r
  slabOwn : ∀ pg, w.G.own pg = .slab ↔ inPages ro.slabStart (ro.arenaSize * ro.g.nArena) pg
  regOwn : ∀ pg p, w.G.own pg = .reg p ↔
    ∃ r, w.σ.rt.Has r ∧ r.p = p ∧ inPages (r.p - r.guard) (pageUp (w.G.effSize r) + 2 * r.guard) pg
  regRw : ∀ r pg, w.σ.rt.Has r → inPages r.p (w.G.effSize r) pg → w.σ.vm.prot pg = .rw
  regLo : ∀ r pg, w.σ.rt.Has r → inPages (r.p - r.guard) r.guard pg → w.σ.vm.prot pg = .none
  regHi : ∀ r pg, w.σ.rt.Has r → inPages (r.p + pageUp (w.G.effSize r)) r.guard pg → w.σ.vm.prot pg = .none
  qrOwn : ∀ pg i, w.G.own pg = .qr i ↔ i < ro.g.regionQRandom ∧ (w.σ.qr i).1 ≠ 0 ∧ inPages (w.σ.qr i).1 (w.σ.qr i).2 pg
  qqOwn : ∀ pg i, w.G.own pg = .qq i ↔ i < ro.g.regionQQueue ∧ (w.σ.qq i).1 ≠ 0 ∧ inPages (w.σ.qq i).1 (w.σ.qq i).2 pg
  qrOk : ∀ i, i < ro.g.regionQRandom → (w.σ.qr i).1 ≠ 0 → QEntryOk (w.σ.qr i)
  qqOk : ∀ i, i < ro.g.regionQQueue → (w.σ.qq i).1 ≠ 0 → QEntryOk (w.σ.qq i)
  qi : ro.g.regionQQueue ≠ 0 → w.σ.qi < ro.g.regionQQueue
  mapped : ∀ pg, w.G.own pg ≠ .none → w.σ.vm.prot pg ≠ .unmapped
  blk : ∀ p, w.G.blk p ≠ .nobody ↔ (∃ a c i k, IsSmall ro w.σ p a c i k) ∨ ∃ s g, w.σ.rt.Has ⟨p, s, g⟩
  eff : ∀ p n, w.G.eff p = some n → (∃ t, w.G.blk p = .thr t) ∧
    ∃ s g, w.σ.rt.Has ⟨p, s, g⟩ ∧ 0 < n ∧ n ≤ s ∧ n % PAGE = 0 ∧ s % PAGE = 0
  cache : w.G.calm = true → ∀ a c, a < ro.g.nArena → c < nClasses ro.g → (w.σ.sc a c).emptyTotal ≤ ro.g.maxEmptySlabsTotal
  qprot : w.G.calm = true → ∀ pg i, w.G.own pg = .qr i ∨ w.G.own pg = .qq i → w.σ.vm.prot pg ≠ .rw

/-- The blocks of holder `h` are unchanged. -/
structure SameB (ro : Ro) (h : Holder) (w w' : World) : Prop where
  blk : ∀ p, w'.G.blk p = h ↔ w.G.blk p = h
  small : ∀ p a c i k, w.G.blk p = h → IsSmall ro w.σ p a c i k → IsSmall ro w'.σ p a c i k ∧
    ((w'.σ.sc a c).slabs i).canary = ((w.σ.sc a c).slabs i).canary ∧
    ∀ x, inRange p (ro.g.slotSize c) x → w'.σ.vm.mem x = w.σ.vm.mem x
  large : ∀ r, w.G.blk r.p = h → w.σ.rt.Has r → w'.σ.rt.Has r ∧ w'.G.eff r.p = w.G.eff r.p ∧
    ∀ x, inRange r.p (pageUp (w.G.effSize r)) x → w'.σ.vm.mem x = w.σ.vm.mem x

/-- What holder `h` owns is unchanged. -/
structure Same (ro : Ro) (h : Holder) (w w' : World) : Prop extends SameB ro h w w' where
  pages : ∀ t, h = .thr t → ∀ pg, w'.G.own pg = .held t ↔ w.G.own pg = .held t
  prot : ∀ t, h = .thr t → ∀ pg, w.G.own pg = .held t → w'.σ.vm.prot pg = w.σ.vm.prot pg
  mem : ∀ t, h = .thr t → ∀ x, w.G.own (x / PAGE) = .held t → w'.σ.vm.mem x = w.σ.vm.mem x

/-- In one class: freed memory is zero and the canaries of live allocations are intact. -/
def ClassContent (g : Cfg) (base cls : Nat) (c : SC) (vm : Vm) : Prop :=
  ∀ i k, i < g.metaMax cls → k < g.slots cls → g.classSize cls ≠ 0 →
    (c.live i k = false → g.zeroOnFree = true → ∀ x,
      inRange (slotAddr g base cls i k) (g.slotSize cls - g.canarySize) x → vm.mem x = 0#8) ∧
    (c.live i k = true → g.slabCanary = true →
      CanaryFine g (c.slabs i).canary (slotAddr g base cls i k + g.slotSize cls - 8) vm)

/-- Freed memory is zero and the canaries of live allocations are intact: true as long as nothing outside of live
allocations has been overwritten. -/
def Content (ro : Ro) (w : World) : Prop :=
  ∀ a c, a < ro.g.nArena → c < nClasses ro.g → ClassContent ro.g (ro.regionStart a c) c (w.σ.sc a c) w.σ.vm

/-- Number of live slots of a class. -/
def liveCount (g : Cfg) (cls : Nat) (c : SC) : Nat :=
  ((Finset.range (g.metaMax cls) ×ˢ Finset.range (g.slots cls)).filter fun ik => c.live ik.1 ik.2 = true).card

/-- Number of accessible slabs of a class. -/
def rwCount (g : Cfg) (cls : Nat) (loc : Nat → Loc) : Nat :=
  ((Finset.range (g.metaMax cls)).filter fun i => (loc i).isRw = true).card

/-- The registered regions. -/
def RegTable.regs (t : RegTable) : Finset RegionMeta := ((Finset.range t.total).image t.tab).filter fun r => r.p ≠ 0

/-- Total size of the registered regions. -/
def regionBytes (t : RegTable) : Nat := ∑ r ∈ t.regs, r.size

/-- The statistics of one class, in which there have been `frees` deallocations, are exact (modulo 2^64). -/
def ClassStat (g : Cfg) (cls : Nat) (c : SC) (loc : Nat → Loc) (frees : Nat) : Prop :=
  (c.allocated = g.slotSize cls * liveCount g cls c % W64 ∧ c.slabAllocated = g.slabSize cls * rwCount g cls loc % W64) ∧
  c.nmalloc = (frees + liveCount g cls c) % W64 ∧ c.ndalloc = frees % W64

/-- The statistics are exact (modulo 2^64). -/
structure StatOk (ro : Ro) (w : World) : Prop where
  small : ro.g.stats = true → ∀ a c, a < ro.g.nArena → c < nClasses ro.g → ClassStat ro.g c (w.σ.sc a c) (w.G.loc a c) (w.G.frees a c)
  large : ro.g.stats = true → w.σ.largeAllocated < W64 ∧
    (w.σ.largeAllocated + w.G.untracked) % W64 = regionBytes w.σ.rt % W64

/-- How many more deallocations in its class a quarantined slot waits for at least (0 if it is not quarantined). -/
def slotDelay (g : Cfg) (cls : Nat) (c : SC) (ql : Nat → Nat → QLoc) (i k : Nat) : Nat :=
  match ql i k with
  | .rand _ => lenQ g cls + 1
  | .queue j => (j + lenQ g cls - c.qidx) % lenQ g cls + 1
  | _ => 0

/-- How many more regions have to enter the quarantine, at least, before a page of a quarantined region leaves it. -/
def pageDelay (g : Cfg) (w : World) (pg : Nat) : Nat :=
  match w.G.own pg with
  | .qr _ => g.regionQQueue + 1
  | .qq j => (j + g.regionQQueue - w.σ.qi) % g.regionQQueue + 1
  | _ => 0

/-- How many deallocations in its class a freed slot waits for at least. -/
def Cfg.slotWait (g : Cfg) (c : Nat) : Nat := if g.slabQRandom = 0 then lenQ g c else lenQ g c + 1

/-- Quarantined memory stays quarantined. -/
structure Delay (ro : Ro) (w w' : World) : Prop where
  frees : ∀ a c, w.G.frees a c ≤ w'.G.frees a c
  made : ∀ a c, a < ro.g.nArena → c < nClasses ro.g → w.G.frees a c + liveCount ro.g c (w.σ.sc a c) ≤ w'.G.frees a c + liveCount ro.g c (w'.σ.sc a c)
  slot : ∀ a c, a < ro.g.nArena → c < nClasses ro.g → ∀ i k, slotDelay ro.g c (w.σ.sc a c) (w.G.ql a c) i k ≤
    slotDelay ro.g c (w'.σ.sc a c) (w'.G.ql a c) i k + (w'.G.frees a c - w.G.frees a c)
  pushes : w.G.pushes ≤ w'.G.pushes
  page : ∀ pg, pageDelay ro.g w pg ≤ pageDelay ro.g w' pg + (w'.G.pushes - w.G.pushes)
  env : w'.G.env = w.G.env

/-- A change of world that leaves the holders in `hs` alone. -/
structure Trans (ro : Ro) (hs : Holder → Prop) (w w' : World) : Prop where
  inv : GInv ro w'
  same : ∀ h, h ≠ .nobody → hs h → Same ro h w w'
  content : Content ro w → Content ro w'
  stat : StatOk ro w → StatOk ro w'
  delay : Delay ro w w'

/-- How many slots of class `c` of arena `a` a section with this label frees. -/
def freesIn (ro : Ro) (l : Option Sect) (a c : Nat) : Nat :=
  match l with
  | some (.cls a' c' (some p)) =>
      if a' = a ∧ c' = c ∧ ro.regionStart a c ≤ p ∧ p < ro.regionStart a c + ro.g.classRegionSize then 1 else 0
  | _ => 0

/-- How many regions a section with this label puts into the quarantine. -/
def quarIn (l : Option Sect) : Nat :=
  match l with
  | some (.regions true _) => 1
  | _ => 0

/-- What an action with label `l` counts for: only sections that free a slot count as deallocations, only sections that
quarantine a region count as such, a small block that is not kept has been put in quarantine, and only sections that record
a region without counting it add to the bytes that the statistics leave out. -/
structure Counted (ro : Ro) (l : Option Sect) (w w' : World) : Prop where
  counted : ∀ a c, w'.G.frees a c ≤ w.G.frees a c + freesIn ro l a c
  queued : w'.G.pushes ≤ w.G.pushes + quarIn l
  slot : ∀ p a c i k, IsSmall ro w.σ p a c i k → w'.G.blk p = w.G.blk p ∨
    ro.g.slotWait c + w.G.frees a c + 1 ≤ slotDelay ro.g c (w'.σ.sc a c) (w'.G.ql a c) i k + w'.G.frees a c
  tracked : (∀ q, l ≠ some (.regions q true)) → w'.G.untracked ≤ w.G.untracked

/-- What thread `t` promises about its actions. -/
abbrev Guar (ro : Ro) (t : Nat) := Trans ro (fun h => h ≠ .thr t)

/-- What thread `t` promises about an action with label `l`. -/
structure Does (ro : Ro) (t : Nat) (l : Option Sect) (w w' : World) : Prop extends Trans ro (fun h => h ≠ .thr t) w w', Counted ro l w w'

/-- `seq`: calls run to completion one after the other. `conc`: calls of different threads are interleaved. -/
inductive Mode where
  | seq
  | conc
  deriving DecidableEq

/-- What may happen between two actions of thread `t`. -/
def Rely (m : Mode) (ro : Ro) (t : Nat) (w w' : World) : Prop :=
  match m with
  | .seq => w' = w
  | .conc => Trans ro (fun h => h = .thr t) w w'

/-- The environment choices considered: the remapping of an outgrown region table does not fail with ENOMEM (the code
ignores this failure), and, when threads are interleaved, neither does the release of the tail of an over-aligned
mapping (the code then unmaps a range part of which it no longer owns); if `env` says so, the kernel never refuses
memory, and memory tagging is enabled or not. -/
def Fair (m : Mode) (env : Bool × Option Bool) (ch : Choice) : Prop :=
  ch.growRemap ≠ .enomem ∧ (m = .conc → ch.trailUnmap ≠ .enomem) ∧
  (env.1 = true → ch.trailUnmap ≠ .enomem ∧ ∀ k, ch.sys k ≠ .enomem) ∧ ∀ b, env.2 = some b → ch.memtag = b

/-- Ways in which an action does not return. -/
inductive Bad where
  | fatal (msg : String)
  | segv
  | ub (why : String)
  | hang

/-- `x` is a byte of the block `p` that its holder may use. -/
def UserByte (ro : Ro) (w : World) (p x : Nat) : Prop :=
  (∃ a c i k, IsSmall ro w.σ p a c i k ∧ ro.g.classSize c ≠ 0 ∧ inRange p (ro.g.slotSize c - ro.g.canarySize) x) ∨
  (∃ s g, w.σ.rt.Has ⟨p, s, g⟩ ∧ inRange p (pageUp (w.G.effSize ⟨p, s, g⟩)) x)

/-- The parts `N` of the state may hold something else (what `ν` has there) while thread `t` executes an action with label
`l`: for a section in which a lock is held, the parts that it does not use; for an action without a lock, metadata, and
protections and bytes in slabs, except that the blocks of the thread itself stay accessible and unchanged. -/
def Noise (ro : Ro) (t : Nat) (l : Option Sect) (w : World) (N : Cell → Prop) (ν : St) : Prop :=
  match l with
  | some s => ∀ c, s.uses ro w.σ c → ¬ N c
  | none =>
    (∀ pg, N (.prot pg) → w.G.own pg = .slab ∧ ν.vm.prot pg ≠ .unmapped ∧
      ∀ p x, w.G.blk p = .thr t → UserByte ro w p x → x / PAGE = pg → ν.vm.prot pg = .rw) ∧
    ∀ x, N (.mem x) → w.G.own (x / PAGE) = .slab ∧ ∀ p, w.G.blk p = .thr t → ¬ UserByte ro w p x

/-- The action depends only on, and changes only, parts that nobody else may have in disorder; the lock it holds, if
any, is that of a class that exists (or it finds that it does not, and does not get further), and a block it frees belongs to
the thread. -/
def Local (ro : Ro) (t : Nat) {β : Type} (l : Option Sect) (f : Choice → St → Tl → Res (St × Tl × β)) (tl : Tl) (w : World) : Prop :=
  (∀ a c fr, l = some (.cls a c fr) → (a < ro.g.nArena ∧ c < nClasses ro.g ∧ ∀ p, fr = some p → w.G.blk p = .thr t) ∨
    ¬ (a < ro.g.nArena ∧ c < nClasses ro.g) ∧ ∀ ch σ r, f ch σ tl ≠ .ok r) ∧
  ∀ ch, Fair .conc w.G.env ch → ∀ N ν, Noise ro t l w N ν →
    Res.Rel (fun r r' => r' = (r.1.patch N ν, r.2)) (f ch w.σ tl) (f ch (w.σ.patch N ν) tl)

/-- Running `P` in thread `t` from world `w`: every action keeps the invariant and the promise, when threads are
interleaved it is local, every abnormal end satisfies `F`, and on return `Q` holds, whatever happens between the actions. -/
def WP (m : Mode) (ro : Ro) (t : Nat) (F : Bad → Choice → World → Prop) {α : Type} :
    Prog α → (α → Tl → World → Prop) → Tl → World → Prop
  | .ret a, Q, tl, w => Q a tl w
  | .act (l := l) f k, Q, tl, w => (m = .conc → Local ro t l f tl w) ∧ ∀ ch, Fair m w.G.env ch →
      match f ch w.σ tl with
      | .ok (σ', tl', b) => ∃ G', Does ro t l w ⟨σ', G'⟩ ∧
          ∀ w'', Rely m ro t ⟨σ', G'⟩ w'' → WP m ro t F (k b) Q tl' w''
      | .fatal msg => F (.fatal msg) ch w
      | .segv => F .segv ch w
      | .ub s => F (.ub s) ch w
      | .hang => F .hang ch w

/-! ### Basic facts -/

variable {ro : Ro}

theorem SameB.refl (h : Holder) (w : World) : SameB ro h w w :=
  ⟨fun _ => Iff.rfl, fun _ _ _ _ _ _ hs => ⟨hs, rfl, fun _ _ => rfl⟩, fun _ _ hr => ⟨hr, rfl, fun _ _ => rfl⟩⟩

theorem Same.refl (h : Holder) (w : World) : Same ro h w w :=
  { SameB.refl h w with
    pages := fun _ _ _ => Iff.rfl
    prot := fun _ _ _ _ => rfl
    mem := fun _ _ _ _ => rfl }

theorem SameB.trans {h : Holder} {w w' w'' : World} (s : SameB ro h w w') (s' : SameB ro h w' w'') : SameB ro h w w'' where
  blk := fun p => (s'.blk p).trans (s.blk p)
  small := fun p a c i k hb hs => by
    obtain ⟨h1, h2, h3⟩ := s.small p a c i k hb hs
    obtain ⟨h1', h2', h3'⟩ := s'.small p a c i k ((s.blk p).mpr hb) h1
    exact ⟨h1', h2'.trans h2, fun x hx => (h3' x hx).trans (h3 x hx)⟩
  large := fun r hb hr => by
    obtain ⟨h1, h2, h3⟩ := s.large r hb hr
    obtain ⟨h1', h2', h3'⟩ := s'.large r ((s.blk r.p).mpr hb) h1
    refine ⟨h1', h2'.trans h2, fun x hx => (h3' x ?_).trans (h3 x hx)⟩
    have : w'.G.effSize r = w.G.effSize r := by unfold Gh.effSize; rw [h2]
    rw [this]; exact hx

theorem Same.trans {h : Holder} {w w' w'' : World} (s : Same ro h w w') (s' : Same ro h w' w'') : Same ro h w w'' :=
  { s.toSameB.trans s'.toSameB with
    pages := fun t e pg => (s'.pages t e pg).trans (s.pages t e pg)
    prot := fun t e pg hp => (s'.prot t e pg ((s.pages t e pg).mpr hp)).trans (s.prot t e pg hp)
    mem := fun t e x hp => (s'.mem t e x ((s.pages t e _).mpr hp)).trans (s.mem t e x hp) }

theorem Delay.refl (w : World) : Delay ro w w :=
  ⟨fun _ _ => Nat.le_refl _, fun _ _ _ _ => Nat.le_refl _, fun _ _ _ _ _ _ => Nat.le_add_right _ _, Nat.le_refl _, fun _ => Nat.le_add_right _ _, rfl⟩

theorem Delay.calm {w w' : World} (s : Delay ro w w') : w'.G.calm = w.G.calm := by rw [Gh.calm, s.env]

theorem Delay.trans {w w' w'' : World} (s : Delay ro w w') (s' : Delay ro w' w'') : Delay ro w w'' where
  frees := fun a c => Nat.le_trans (s.frees a c) (s'.frees a c)
  made := fun a c ha hc => Nat.le_trans (s.made a c ha hc) (s'.made a c ha hc)
  slot := fun a c ha hc i k => by
    have h1 := s.slot a c ha hc i k
    have h2 := s'.slot a c ha hc i k
    have h3 := s.frees a c
    have h4 := s'.frees a c
    omega
  pushes := Nat.le_trans s.pushes s'.pushes
  page := fun pg => by
    have h1 := s.page pg
    have h2 := s'.page pg
    have h3 := s.pushes
    have h4 := s'.pushes
    omega
  env := s'.env.trans s.env

theorem Trans.refl {hs : Holder → Prop} {w : World} (h : GInv ro w) : Trans ro hs w w :=
  ⟨h, fun h _ _ => Same.refl h w, id, id, Delay.refl w⟩

theorem Trans.trans {hs : Holder → Prop} {w w' w'' : World} (s : Trans ro hs w w') (s' : Trans ro hs w' w'') :
    Trans ro hs w w'' :=
  ⟨s'.inv, fun h h0 h1 => (s.same h h0 h1).trans (s'.same h h0 h1), fun c => s'.content (s.content c),
   fun c => s'.stat (s.stat c), s.delay.trans s'.delay⟩

/-- A promise about an action that neither frees a slot nor quarantines a region. -/
theorem Trans.quiet {t : Nat} {l : Option Sect} {w w' : World} (g : Guar ro t w w') (hf : w'.G.frees = w.G.frees := by rfl)
    (hp : w'.G.pushes = w.G.pushes := by rfl) (hb : ∀ p a c i k, IsSmall ro w.σ p a c i k → w'.G.blk p = w.G.blk p := by intros; rfl)
    (hu : (∀ q, l ≠ some (.regions q true)) → w'.G.untracked ≤ w.G.untracked := by intro _; exact Nat.le_refl _) :
    Does ro t l w w' :=
  ⟨g, fun a c => by rw [hf]; omega, by rw [hp]; omega, fun p a c i k h => Or.inl (hb p a c i k h), hu⟩

theorem Rely.trans' {m : Mode} {t : Nat} {w w' : World} (h : GInv ro w) (r : Rely m ro t w w') :
    Trans ro (fun h => h = .thr t) w w' := by
  cases m with
  | seq => rw [show w' = w from r]; exact Trans.refl h
  | conc => exact r

section
variable {m : Mode} {t : Nat} {F : Bad → Choice → World → Prop}

theorem WP.bind {α β : Type} {P : Prog α} {f : α → Prog β} {Q : β → Tl → World → Prop} {tl : Tl} {w : World}
    (h : WP m ro t F P (fun a tl w => WP m ro t F (f a) Q tl w) tl w) : WP m ro t F (P.bind f) Q tl w := by
  induction P generalizing tl w with
  | ret a => exact h
  | act g k ih =>
    refine ⟨h.1, fun ch hf => ?_⟩
    have h := h.2 ch hf
    revert h
    cases g ch w.σ tl with
    | ok r => 
      obtain ⟨σ', tl', b⟩ := r
      rintro ⟨G', hg, hk⟩
      exact ⟨G', hg, fun w'' hr => ih b (hk w'' hr)⟩
    | fatal msg => exact id
    | segv => exact id
    | ub _ => exact id
    | hang => exact id

theorem WP.mono {α : Type} {P : Prog α} {Q Q' : α → Tl → World → Prop} {tl : Tl} {w : World}
    (h : WP m ro t F P Q tl w) (hQ : ∀ a tl w, Q a tl w → Q' a tl w) : WP m ro t F P Q' tl w := by
  induction P generalizing tl w with
  | ret a => exact hQ _ _ _ h
  | act g k ih =>
    refine ⟨h.1, fun ch hf => ?_⟩
    have h := h.2 ch hf
    revert h
    cases g ch w.σ tl with
    | ok r => 
      obtain ⟨σ', tl', b⟩ := r
      rintro ⟨G', hg, hk⟩
      exact ⟨G', hg, fun w'' hr => ih b (hk w'' hr)⟩
    | fatal msg => exact id
    | segv => exact id
    | ub _ => exact id
    | hang => exact id

/-- The two ways of writing sequencing. -/
theorem Prog.bind_eq {α β : Type} (P : Prog α) (f : α → Prog β) : (P >>= f) = P.bind f := rfl
theorem Prog.pure_eq {α : Type} (a : α) : (pure a : Prog α) = .ret a := rfl


end

end HM
