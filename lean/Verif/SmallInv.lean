import Verif.SmallLists
/-
Invariant of one size class, and address arithmetic: which pointers denote slots.
-/
namespace HM

/-- Address of slot `k` of slab `i`. -/
def slotAddr (g : Cfg) (base cls i k : Nat) : Nat := slotPointer (g.slotSize cls) (slabAddr base (g.slabSize cls) i) k

theorem slotAddr_eq (g : Cfg) (base cls i k : Nat) :
    slotAddr g base cls i k = base + i * g.slabSize cls + k * g.slotSize cls := rfl

/-- The region of the class is page aligned and inside the address space. -/
structure BaseOk (g : Cfg) (base : Nat) : Prop where
  mod : base % PAGE = 0
  pos : PAGE ≤ base
  hi : base + g.classRegionSize ≤ ADDR_END

/-- Slot `k` of slab `i` is marked used. -/
def SC.used (c : SC) (i k : Nat) : Bool := (c.slabs i).bitmap.bit k
/-- Slot `k` of slab `i` is marked quarantined. -/
def SC.quar (c : SC) (i k : Nat) : Bool := (c.slabs i).qbitmap.bit k
/-- Slot `k` of slab `i` holds a live allocation. -/
def SC.live (c : SC) (i k : Nat) : Bool := c.used i k && !c.quar i k

/-- Slab positions that have been taken so far and are not guard slabs. -/
def SC.Active (g : Cfg) (c : SC) (i : Nat) : Prop :=
  i < c.metaCount ∧ i % (g.guardSlabsInterval + 1) ≠ g.guardSlabsInterval

/-- Position of a quarantined slot. `transit`: taken out of one array and not yet in the next. -/
inductive QLoc where
  | none
  | rand (j : Nat)
  | queue (j : Nat)
  | transit
  deriving DecidableEq

/-- The quarantine arrays agree with the position map `ql`. -/
structure QArr (g : Cfg) (base cls : Nat) (c : SC) (ql : Nat → Nat → QLoc) : Prop where
  bit : ∀ i k, c.quar i k = true ↔ ql i k ≠ .none
  sub : ∀ i k, ql i k ≠ .none → c.used i k = true
  r1 : ∀ i k j, ql i k = .rand j → c.qrand j = slotAddr g base cls i k ∧ j < shl64 g.slabQRandom (quarantineShift g (g.slotSize cls))
  r2 : ∀ j, c.qrand j ≠ 0 → ∃ i k, ql i k = .rand j
  q1 : ∀ i k j, ql i k = .queue j → c.qqueue j = slotAddr g base cls i k ∧ j < shl64 g.slabQQueue (quarantineShift g (g.slotSize cls))
  q2 : ∀ j, c.qqueue j ≠ 0 → ∃ i k, ql i k = .queue j
  idx : g.slabQQueue ≠ 0 → c.qidx < shl64 g.slabQQueue (quarantineShift g (g.slotSize cls))

/-- The slab counts and bitmaps. -/
structure Bits (g : Cfg) (cls : Nat) (c : SC) (loc : Nat → Loc) : Prop where
  ung : c.metaUnguarded = c.metaCount % (g.guardSlabsInterval + 1)
  unglt : c.metaUnguarded < g.guardSlabsInterval
  mpos : c.metaAllocated = 0 ∨ 8 ≤ c.metaAllocated
  mle : c.metaAllocated ≤ g.metaMax cls
  mcount : c.metaCount ≤ c.metaAllocated + 1
  act : ∀ i, c.Active g i → i < c.metaAllocated
  fresh : ∀ i, loc i = .fresh ↔ ¬ c.Active g i
  zero : ∀ i, ¬ c.Active g i → c.slabs i = Slab.zero
  cnt : ∀ i, (c.slabs i).count = bitCount (c.slabs i).bitmap (g.slots cls)
  hi : ∀ i k, g.slots cls ≤ k → c.used i k = false

/-- Slab counts agree with the list a slab is in. -/
def CountOk (slots : Nat) (l : Loc) (n : Nat) : Prop :=
  match l with
  | .fresh => n = 0
  | .out => n = slots
  | .part => 0 < n ∧ n < slots
  | .empty => n = 0
  | .free => n = 0
  | .quar _ => n = 0

/-- Invariant of a size class; `P`, `E`, `F` are the contents of the lists, `loc` and `ql` say where each slab and each
quarantined slot is. -/
structure SCInv (g : Cfg) (base cls : Nat) (c : SC) (P E F : List Nat) (loc : Nat → Loc) (ql : Nat → Nat → QLoc) : Prop where
  lists : Lists g c P E F loc
  etot : c.emptyTotal = E.length * g.slabSize cls
  bits : Bits g cls c loc
  cntOk : ∀ i, CountOk (g.slots cls) (loc i) (c.slabs i).count
  qarr : QArr g base cls c ql
  notransit : ∀ i k, ql i k ≠ .transit

/-- A slab's memory is accessible. -/
def Loc.isRw (l : Loc) : Bool :=
  match l with
  | .out => true
  | .part => true
  | .empty => true
  | _ => false

/-- Protections and contents of the memory of a size class: slabs in use or cached are accessible (except for the zero
byte class), everything else is inaccessible and zero. -/
structure SCVm (g : Cfg) (base cls : Nat) (loc : Nat → Loc) (vm : Vm) : Prop where
  rw : ∀ i x, (loc i).isRw = true → g.classSize cls ≠ 0 → inRange (slabAddr base (g.slabSize cls) i) (g.slabSize cls) x →
    vm.prot (x / PAGE) = .rw
  off : ∀ i x, i < g.metaMax cls → ¬ ((loc i).isRw = true ∧ g.classSize cls ≠ 0) →
    inRange (slabAddr base (g.slabSize cls) i) (g.slabSize cls) x → vm.prot (x / PAGE) = .none ∧ vm.mem x = 0#8

/-! ### Address arithmetic -/

section Geo
variable {g : Cfg} {base cls : Nat}

theorem metaMax_le (_hcls : cls < nClasses g) : g.metaMax cls * g.slabSize cls ≤ g.classRegionSize :=
  Nat.div_mul_le_self _ _

theorem slab_in_region (hcls : cls < nClasses g) {i : Nat} (hi : i < g.metaMax cls) :
    i * g.slabSize cls + g.slabSize cls ≤ g.classRegionSize := by
  have h1 := metaMax_le (g := g) hcls
  have h2 : (i + 1) * g.slabSize cls ≤ g.metaMax cls * g.slabSize cls := Nat.mul_le_mul_right _ hi
  rw [Nat.add_mul, Nat.one_mul] at h2
  omega

theorem slot_in_slab (hcls : cls < nClasses g) {k : Nat} (hk : k < g.slots cls) :
    k * g.slotSize cls + g.slotSize cls ≤ g.slabSize cls := by
  have G := classGeo g hcls
  have h2 : (k + 1) * g.slotSize cls ≤ g.slots cls * g.slotSize cls := Nat.mul_le_mul_right _ hk
  rw [Nat.add_mul, Nat.one_mul] at h2
  have := G.fits
  omega

/-- Quotient and remainder by the slab size. -/
theorem slab_divmod (hcls : cls < nClasses g) {i r : Nat} (hr : r < g.slabSize cls) :
    (i * g.slabSize cls + r) / g.slabSize cls = i ∧ (i * g.slabSize cls + r) % g.slabSize cls = r := by
  have G := classGeo g hcls
  have hpos : 0 < g.slabSize cls := by have := G.slab_ge; omega
  rw [Nat.mul_comm]
  constructor
  · rw [Nat.mul_add_div hpos, Nat.div_eq_of_lt hr, Nat.add_zero]
  · rw [Nat.mul_add_mod, Nat.mod_eq_of_lt hr]

theorem slotAddr_inj (hcls : cls < nClasses g) {i k i' k' : Nat} (hk : k < g.slots cls) (hk' : k' < g.slots cls)
    (h : slotAddr g base cls i k = slotAddr g base cls i' k') : i = i' ∧ k = k' := by
  rw [slotAddr_eq, slotAddr_eq] at h
  have G := classGeo g hcls
  have h0 : 0 < g.slotSize cls := by have := G.size_ge; omega
  have h1 := slot_in_slab hcls hk
  have h2 := slot_in_slab hcls hk'
  have e : i * g.slabSize cls + k * g.slotSize cls = i' * g.slabSize cls + k' * g.slotSize cls := by omega
  have a := slab_divmod hcls (i := i) (r := k * g.slotSize cls) (by omega)
  have b := slab_divmod hcls (i := i') (r := k' * g.slotSize cls) (by omega)
  rw [e] at a
  refine ⟨a.1.symm.trans b.1, ?_⟩
  have hm : k * g.slotSize cls = k' * g.slotSize cls := a.2.symm.trans b.2
  exact Nat.eq_of_mul_eq_mul_right h0 hm

/-- Different slots are disjoint byte ranges. -/
theorem slot_disjoint (hcls : cls < nClasses g) {i k i' k' x : Nat} (hk : k < g.slots cls) (hk' : k' < g.slots cls)
    (h : inRange (slotAddr g base cls i k) (g.slotSize cls) x)
    (h' : inRange (slotAddr g base cls i' k') (g.slotSize cls) x) : i = i' ∧ k = k' := by
  rw [slotAddr_eq] at h h'
  unfold inRange at h h'
  have h1 := slot_in_slab hcls hk
  have h2 := slot_in_slab hcls hk'
  have G := classGeo g hcls
  have h0 : 0 < g.slotSize cls := by have := G.size_ge; omega
  have a := slab_divmod hcls (i := i) (r := x - (base + i * g.slabSize cls)) (by omega)
  have b := slab_divmod hcls (i := i') (r := x - (base + i' * g.slabSize cls)) (by omega)
  have ea : i * g.slabSize cls + (x - (base + i * g.slabSize cls)) = x - base := by omega
  have eb : i' * g.slabSize cls + (x - (base + i' * g.slabSize cls)) = x - base := by omega
  rw [ea] at a
  rw [eb] at b
  have hi : i = i' := a.1.symm.trans b.1
  subst hi
  refine ⟨rfl, ?_⟩
  have e1 : (x - (base + i * g.slabSize cls)) / g.slotSize cls = k := by
    apply Nat.div_eq_of_lt_le
    · omega
    · rw [Nat.add_mul, Nat.one_mul]; omega
  have e2 : (x - (base + i * g.slabSize cls)) / g.slotSize cls = k' := by
    apply Nat.div_eq_of_lt_le
    · omega
    · rw [Nat.add_mul, Nat.one_mul]; omega
  exact e1.symm.trans e2

/-- Different slabs are disjoint. -/
theorem slab_disjoint (hcls : cls < nClasses g) {i i' x : Nat}
    (h : inRange (slabAddr base (g.slabSize cls) i) (g.slabSize cls) x)
    (h' : inRange (slabAddr base (g.slabSize cls) i') (g.slabSize cls) x) : i = i' := by
  unfold inRange slabAddr at h h'
  have a := slab_divmod hcls (i := i) (r := x - (base + i * g.slabSize cls)) (by omega)
  have b := slab_divmod hcls (i := i') (r := x - (base + i' * g.slabSize cls)) (by omega)
  have ea : i * g.slabSize cls + (x - (base + i * g.slabSize cls)) = x - base := by omega
  have eb : i' * g.slabSize cls + (x - (base + i' * g.slabSize cls)) = x - base := by omega
  rw [ea] at a
  rw [eb] at b
  exact a.1.symm.trans b.1

theorem slot_range_slab (hcls : cls < nClasses g) {i k x : Nat} (hk : k < g.slots cls)
    (h : inRange (slotAddr g base cls i k) (g.slotSize cls) x) :
    inRange (slabAddr base (g.slabSize cls) i) (g.slabSize cls) x := by
  rw [slotAddr_eq] at h
  have h1 := slot_in_slab hcls hk
  unfold inRange slabAddr at *
  omega

theorem slab_mod (hb : BaseOk g base) (hcls : cls < nClasses g) (i : Nat) : slabAddr base (g.slabSize cls) i % PAGE = 0 := by
  have G := classGeo g hcls
  unfold slabAddr
  rw [Nat.add_mod, Nat.mul_mod, G.slab_mod, hb.mod]
  simp

theorem metaMax_ge (hv : g.Valid) (hcls : cls < nClasses g) : 8 ≤ g.metaMax cls := by
  have G := classGeo g hcls
  unfold Cfg.metaMax
  rw [Nat.le_div_iff_mul_le (by have := G.slab_ge; omega)]
  have := G.slab_le
  have := hv.classRegionMin
  omega

theorem metaMax_le_max (hv : g.Valid) (hcls : cls < nClasses g) : g.metaMax cls ≤ 268435456 := by
  have G := classGeo g hcls
  unfold Cfg.metaMax
  have h1 : g.classRegionSize / g.slabSize cls ≤ g.classRegionSize / 4096 := Nat.div_le_div_left G.slab_ge (by decide)
  have := hv.classRegionMax
  omega

/-- `getMetadata` on a pointer into slab `i` below `metaAllocated`. -/
theorem getMetadata_in (_hv : g.Valid) (hb : BaseOk g base) (hcls : cls < nClasses g) {c : SC} {i p : Nat}
    (hi : i < c.metaAllocated) (hm : c.metaAllocated ≤ g.metaMax cls)
    (hp : inRange (slabAddr base (g.slabSize cls) i) (g.slabSize cls) p) : getMetadata g base cls p c = .ok i := by
  have G := classGeo g hcls
  have h1 := slab_in_region hcls (g := g) (i := i) (by omega)
  have := hb.hi
  unfold inRange slabAddr at hp
  unfold getMetadata
  have hs : sub64 p base = p - base := sub64_of_le (by omega) (by omega)
  simp only [hs]
  rw [c32_u64 _ _ (by have := G.slab_ge; omega) (by have := G.slab_le; omega) (by omega)]
  have a := slab_divmod hcls (i := i) (r := p - (base + i * g.slabSize cls)) (by omega)
  have ea : i * g.slabSize cls + (p - (base + i * g.slabSize cls)) = p - base := by omega
  rw [ea] at a
  rw [a.1, if_neg (by omega)]

/-- `getMetadata` on any address: either fatal, or the pointer is inside the slab found. -/
theorem getMetadata_any (hv : g.Valid) (hb : BaseOk g base) (hcls : cls < nClasses g) {c : SC} {p : Nat} (hp : p < W64)
    (hm : c.metaAllocated ≤ g.metaMax cls) :
    (∃ i, getMetadata g base cls p c = .ok i ∧ i < c.metaAllocated ∧
      inRange (slabAddr base (g.slabSize cls) i) (g.slabSize cls) p) ∨
    ((∃ msg, getMetadata g base cls p c = .fatal msg) ∧
      ∀ i, i < c.metaAllocated → ¬ inRange (slabAddr base (g.slabSize cls) i) (g.slabSize cls) p) := by
  have G := classGeo g hcls
  have hbhi := hb.hi
  have hmax := metaMax_le_max hv hcls
  have hd : libdivideU64Do (sub64 p base) (libdivideU64Gen (g.slabSize cls)) = sub64 p base / g.slabSize cls :=
    c32_u64 _ _ (by have := G.slab_ge; omega) (by have := G.slab_le; omega) (sub64_lt _ _)
  by_cases hlt : sub64 p base / g.slabSize cls < c.metaAllocated
  · left
    refine ⟨sub64 p base / g.slabSize cls, ?_, hlt, ?_⟩
    · unfold getMetadata; simp only [hd]; rw [if_neg (by omega)]
    · have hle : base ≤ p := by
        by_contra hc
        have hw : sub64 p base = p + W64 - base := sub64_of_gt (by omega) (by omega)
        have : g.metaMax cls ≤ sub64 p base / g.slabSize cls := by
          rw [Nat.le_div_iff_mul_le (by have := G.slab_ge; omega)]
          have h1 := metaMax_le (g := g) hcls
          rw [hw]; omega
        omega
      have hs : sub64 p base = p - base := sub64_of_le hp hle
      rw [hs] at hlt ⊢
      have h1 := Nat.div_add_mod (p - base) (g.slabSize cls)
      have h2 := Nat.mod_lt (p - base) (show g.slabSize cls > 0 by have := G.slab_ge; omega)
      rw [Nat.mul_comm] at h1
      unfold inRange slabAddr
      omega
  · right
    refine ⟨⟨"invalid free within a slab yet to be used", ?_⟩, ?_⟩
    · unfold getMetadata; simp only [hd]; rw [if_pos (by omega)]
    · intro i hi hin
      have h1 := slab_in_region hcls (g := g) (i := i) (by omega)
      unfold inRange slabAddr at hin
      have hs : sub64 p base = p - base := sub64_of_le hp (by omega)
      have a := slab_divmod hcls (i := i) (r := p - (base + i * g.slabSize cls)) (by omega)
      have ea : i * g.slabSize cls + (p - (base + i * g.slabSize cls)) = p - base := by omega
      rw [ea] at a
      rw [hs, a.1] at hlt
      omega

/-- Slot number of a pointer into slab `i`. -/
theorem slotIndex_in (hb : BaseOk g base) (hcls : cls < nClasses g) {i p : Nat} (hi : i < g.metaMax cls)
    (hp : inRange (slabAddr base (g.slabSize cls) i) (g.slabSize cls) p) :
    slotIndex g base cls p i = (p - slabAddr base (g.slabSize cls) i) / g.slotSize cls ∧ slotIndex g base cls p i < 256 := by
  have G := classGeo g hcls
  have h1 := slab_in_region hcls (g := g) (i := i) hi
  have := hb.hi
  have hslab : slabAddr base (g.slabSize cls) i = base + i * g.slabSize cls := rfl
  unfold inRange at hp
  unfold slotIndex
  have hs : sub64 p (slabAddr base (g.slabSize cls) i) = p - slabAddr base (g.slabSize cls) i :=
    sub64_of_le (by omega) (by omega)
  rw [hs, Nat.mod_eq_of_lt (by have := G.slab_le; omega),
    c32_u32 _ _ (by have := G.size_ge; omega) (by have := G.size_le; omega) (by have := G.slab_le; omega)]
  refine ⟨rfl, ?_⟩
  rw [Nat.div_lt_iff_lt_mul (by have := G.size_ge; omega)]
  have := G.slab_idx
  omega

theorem slotIndex_addr (hb : BaseOk g base) (hcls : cls < nClasses g) {i k : Nat} (hi : i < g.metaMax cls)
    (hk : k < g.slots cls) : slotIndex g base cls (slotAddr g base cls i k) i = k := by
  have G := classGeo g hcls
  have h0 : 0 < g.slotSize cls := by have := G.size_ge; omega
  have hin : inRange (slotAddr g base cls i k) (g.slotSize cls) (slotAddr g base cls i k) := ⟨by omega, by omega⟩
  rw [(slotIndex_in hb hcls hi (slot_range_slab hcls hk hin)).1]
  rw [show slotAddr g base cls i k - slabAddr base (g.slabSize cls) i = k * g.slotSize cls by
    rw [slotAddr_eq]; unfold slabAddr; omega]
  exact Nat.mul_div_cancel _ h0

theorem slotAddr_pos (hb : BaseOk g base) (i k : Nat) : slotAddr g base cls i k ≠ 0 := by
  have := hb.pos
  rw [slotAddr_eq]; omega

theorem slotAddr_lt (_hv : g.Valid) (_hb : BaseOk g base) (hcls : cls < nClasses g) {i k : Nat} (hi : i < g.metaMax cls)
    (hk : k < g.slots cls) : slotAddr g base cls i k + g.slotSize cls ≤ base + g.classRegionSize := by
  have h1 := slab_in_region hcls (g := g) (i := i) hi
  have h2 := slot_in_slab hcls hk
  rw [slotAddr_eq]; omega

end Geo

/-! ### Consequences of the invariant -/

theorem Bits.used_active {g : Cfg} {cls : Nat} {c : SC} {loc : Nat → Loc} (h : Bits g cls c loc) {i k : Nat}
    (hu : c.used i k = true) : c.Active g i := by
  by_contra hc
  have := h.zero i hc
  unfold SC.used at hu
  rw [this] at hu
  simp [Slab.zero, Bitmap.bit_zero] at hu

theorem Bits.used_lt {g : Cfg} {cls : Nat} {c : SC} {loc : Nat → Loc} (h : Bits g cls c loc) {i k : Nat}
    (hu : c.used i k = true) : k < g.slots cls := by
  by_contra hc
  have := h.hi i k (by omega)
  rw [hu] at this; exact absurd this (by simp)

theorem Bits.used_meta {g : Cfg} {cls : Nat} {c : SC} {loc : Nat → Loc} (h : Bits g cls c loc) {i k : Nat}
    (hu : c.used i k = true) : i < c.metaAllocated ∧ i < g.metaMax cls := by
  have := h.act i (h.used_active hu)
  have := h.mle
  omega

/-- `findSlot` returns exactly the used slot that starts at `p`; otherwise it aborts. -/
theorem findSlot_spec {g : Cfg} {base cls p : Nat} {c : SC} {loc : Nat → Loc} {msg1 msg2 : String} (hv : g.Valid) (hb : BaseOk g base)
    (hcls : cls < nClasses g) (h : Bits g cls c loc) (hp : p < W64) :
    match findSlot g base cls p c msg1 msg2 with
    | .ok (m, k) => p = slotAddr g base cls m k ∧ c.used m k = true
    | .fatal _ => ∀ m k, c.used m k = true → p ≠ slotAddr g base cls m k
    | _ => False := by
  have G := classGeo g hcls
  have h0 : 0 < g.slotSize cls := by have := G.size_ge; omega
  have hin : ∀ m k, k < g.slots cls →
      inRange (slabAddr base (g.slabSize cls) m) (g.slabSize cls) (slotAddr g base cls m k) := fun m k hk =>
    slot_range_slab hcls hk ⟨by omega, by omega⟩
  unfold findSlot
  rcases getMetadata_any hv hb hcls hp h.mle with ⟨i, hi, hlt, hr⟩ | ⟨⟨msg, hi⟩, hno⟩
  · rw [hi, Res.bind_ok]
    simp only
    obtain ⟨he, h256⟩ := slotIndex_in hb hcls (show i < g.metaMax cls by have := h.mle; omega) hr
    split
    · rename_i r heq
      split_ifs at heq with c1 c2 c3
      simp only [Res.ok.injEq, Prod.mk.injEq] at heq
      obtain ⟨e1, e2⟩ := heq
      subst e1; subst e2
      refine ⟨?_, ?_⟩
      · rw [not_ne_iff] at c1; exact c1.symm
      · rw [Bitmap.get_eq] at c3; unfold SC.used; simpa using c3
    · rename_i msg heq
      intro m k hu hpe
      have hmi : m = i := by
        have := hin m k (h.used_lt hu)
        rw [← hpe] at this
        exact slab_disjoint hcls this hr
      subst hmi
      have hk : slotIndex g base cls p m = k := by
        rw [hpe]; exact slotIndex_addr hb hcls (h.used_meta hu).2 (h.used_lt hu)
      rw [hk] at heq
      split_ifs at heq with c1 c2 c3
      · exact c1 hpe.symm
      · rw [Bitmap.get_eq] at c3; unfold SC.used at hu; rw [hu] at c3; exact absurd c3 (by simp)
    · rename_i hne1 hne2
      split_ifs at hne1 hne2 with c1 c2 c3 <;> first | omega | exact hne2 _ rfl | exact hne1 _ _ rfl
  · rw [hi, Res.bind_fatal]
    intro m k hu hpe
    apply hno m (h.used_meta hu).1
    rw [hpe]
    exact hin m k (h.used_lt hu)

end HM
