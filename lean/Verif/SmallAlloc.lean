import Verif.SmallInv
/-
Specification of `allocateSmall`: every outcome, for every state satisfying the invariant.
-/
namespace HM

/-- Effect of taking slot `k` of slab `i` on the metadata. -/
structure Taken (g : Cfg) (cls : Nat) (c c' : SC) (i k : Nat) : Prop where
  lt : k < g.slots cls
  imax : i < g.metaMax cls
  free : c.used i k = false
  used : ∀ a b, c'.used a b = (c.used a b || (decide (a = i) && decide (b = k)))
  quar : ∀ a b, c'.quar a b = c.quar a b
  canary : ∀ a, 0 < (c.slabs a).count → (c'.slabs a).canary = (c.slabs a).canary
  qrand : c'.qrand = c.qrand
  qqueue : c'.qqueue = c.qqueue
  qidx : c'.qidx = c.qidx
  allocated : c'.allocated = if g.stats then add64 c.allocated (g.slotSize cls) else c.allocated
  nmalloc : c'.nmalloc = if g.stats then add64 c.nmalloc 1 else c.nmalloc
  ndalloc : c'.ndalloc = c.ndalloc

/-- The canary at `a` has its value, or is the zero that a block allocated with memory tagging has. -/
def CanaryFine (g : Cfg) (canary : BitVec 64) (a : Nat) (vm : Vm) : Prop :=
  (∀ j, j < 8 → vm.mem (a + j) = byteOf canary j) ∨ (g.mte = true ∧ ∀ j, j < 8 → vm.mem (a + j) = 0#8)

theorem CanaryFine.congr {g : Cfg} {canary : BitVec 64} {a : Nat} {vm vm' : Vm} (h : CanaryFine g canary a vm)
    (e : ∀ j, j < 8 → vm'.mem (a + j) = vm.mem (a + j)) : CanaryFine g canary a vm' :=
  h.imp (fun h j hj => (e j hj).trans (h j hj)) fun h => ⟨h.1, fun j hj => (e j hj).trans (h.2 j hj)⟩

theorem CanaryFine.value {g : Cfg} {canary : BitVec 64} {a : Nat} {vm : Vm} (h : CanaryFine g canary a vm) (hm : g.mte = false) {j : Nat} (hj : j < 8) :
    vm.mem (a + j) = byteOf canary j := by
  rcases h with h | ⟨h, _⟩
  · exact h j hj
  · rw [hm] at h; cases h

/-- Effect of handing out the slot at `p` on memory: the canary is written or, with memory tagging, the slot is cleared,
and if slab `i` was inaccessible it becomes accessible. -/
structure TakenVm (g : Cfg) (tag : Bool) (base cls : Nat) (loc : Nat → Loc) (canary : BitVec 64) (vm vm' : Vm) (i k : Nat) : Prop where
  mem : ∀ x, ¬ (g.classSize cls ≠ 0 ∧ ((g.slabCanary = true ∧ inRange (slotAddr g base cls i k + g.slotSize cls - 8) 8 x) ∨
    (tag = true ∧ inRange (slotAddr g base cls i k) (g.slotSize cls) x))) → vm'.mem x = vm.mem x
  can : g.classSize cls ≠ 0 → g.slabCanary = true → CanaryFine g canary (slotAddr g base cls i k + g.slotSize cls - 8) vm'
  cleared : ∀ x, inRange (slotAddr g base cls i k) (g.slotSize cls - g.canarySize) x → vm'.mem x = vm.mem x ∨ vm'.mem x = 0#8
  zero : g.classSize cls ≠ 0 → (g.writeAfterFreeCheck = true ∨ (loc i).isRw = false ∨ tag = true) → ∀ x,
    inRange (slotAddr g base cls i k) (g.slotSize cls - g.canarySize) x → vm'.mem x = 0#8
  prot : ∀ pg, vm'.prot pg = if (loc i).isRw = false ∧ g.classSize cls ≠ 0 ∧
    inPages (slabAddr base (g.slabSize cls) i) (g.slabSize cls) pg then .rw else vm.prot pg

/-- Metadata changes that no caller can see. -/
structure SameSlots (c c' : SC) : Prop where
  used : ∀ a b, c'.used a b = c.used a b
  quar : ∀ a b, c'.quar a b = c.quar a b
  canary : ∀ a, 0 < (c.slabs a).count → (c'.slabs a).canary = (c.slabs a).canary
  qrand : c'.qrand = c.qrand
  qqueue : c'.qqueue = c.qqueue
  qidx : c'.qidx = c.qidx
  allocated : c'.allocated = c.allocated
  nmalloc : c'.nmalloc = c.nmalloc
  ndalloc : c'.ndalloc = c.ndalloc
  slabAllocated : c'.slabAllocated = c.slabAllocated

/-- Every slab position of the class is full or held back in the array of purged slabs, and no position is left. -/
def Exhausted (g : Cfg) (cls : Nat) (c : SC) (loc : Nat → Loc) : Prop :=
  g.metaMax cls ≤ c.metaCount ∧ ∀ i, c.Active g i → loc i = .out ∨ ∃ j, loc i = .quar j

/-- What `allocateSmall` may do. -/
def AllocPost (g : Cfg) (base cls : Nat) (ch : Choice) (c : SC) (vm : Vm) (e : Errno) (loc : Nat → Loc)
    (ql : Nat → Nat → QLoc) : Res (Option Nat × SC × Vm × Errno) → Prop
  | .ok (none, c', vm', e') => e' = ENOMEM ∧ vm' = vm ∧ SameSlots c c' ∧
      (∃ P E F, SCInv g base cls c' P E F loc ql) ∧ ((∃ k, ch.sys k = .enomem) ∨ Exhausted g cls c loc)
  | .ok (some p, c', vm', e') => e' = e ∧ ∃ i k v, p = slotAddr g base cls i k ∧ (v = .part ∨ v = .out) ∧
      (∃ P E F, SCInv g base cls c' P E F (Loc.set loc i v) ql) ∧ SCVm g base cls (Loc.set loc i v) vm' ∧
      Taken g cls c c' i k ∧ TakenVm g (tagging g ch) base cls loc (c'.slabs i).canary vm vm' i k ∧
      c'.slabAllocated = if g.stats = true ∧ (loc i).isRw = false then add64 c.slabAllocated (g.slabSize cls) else c.slabAllocated
  | .fatal msg => (∃ k, ch.sys k = .other) ∨
      (msg = "detected write after free" ∧ g.writeAfterFreeCheck = true ∧ g.classSize cls ≠ 0 ∧
        ∃ i k x, k < g.slots cls ∧ (loc i).isRw = true ∧ c.used i k = false ∧
          inRange (slotAddr g base cls i k) (g.slotSize cls - g.canarySize) x ∧ vm.mem x ≠ 0#8)
  | _ => False

/-! ### Pieces -/

theorem inRange_words {p n x : Nat} (hn : n % 8 = 0) (h : inRange p n x) :
    ∃ i j, i < (n + 7) / 8 ∧ j < 8 ∧ x = p + i * 8 + j := by
  unfold inRange at h
  exact ⟨(x - p) / 8, (x - p) % 8, by omega, by omega, by omega⟩

theorem writeAfterFreeCheck_spec {g : Cfg} {tag : Bool} {p n : Nat} {vm : Vm} (hn : n % 8 = 0)
    (hrw : ∀ x, inRange p n x → vm.prot (x / PAGE) = .rw) :
    match writeAfterFreeCheck g tag p n vm with
    | .ok _ => tag = false → g.writeAfterFreeCheck = true → ∀ x, inRange p n x → vm.mem x = 0#8
    | .fatal msg => msg = "detected write after free" ∧ g.writeAfterFreeCheck = true ∧ ∃ x, inRange p n x ∧ vm.mem x ≠ 0#8
    | _ => False := by
  unfold writeAfterFreeCheck
  cases tag with
  | true => simp
  | false =>
  by_cases h1 : g.writeAfterFreeCheck = true
  · simp only [h1, Bool.not_true, Bool.or_false, Bool.false_eq_true, if_false, Vm.accessible_of_pages hrw]
    by_cases h2 : (∀ i : Nat, i < (n + 7) / 8 → vm.wordZero (p + i * 8) = true)
    · rw [if_pos (by simpa using h2)]
      intro _ _ x hx
      obtain ⟨i, j, hi, hj, rfl⟩ := inRange_words hn hx
      have := h2 i hi
      unfold Vm.wordZero at this
      rw [decide_eq_true_iff] at this
      exact this j hj
    · rw [if_neg (by simpa using h2)]
      refine ⟨rfl, trivial, ?_⟩
      push Not at h2
      obtain ⟨i, hi, hz⟩ := h2
      unfold Vm.wordZero at hz
      rw [ne_eq, decide_eq_true_iff] at hz
      push Not at hz
      obtain ⟨j, hj, hz⟩ := hz
      exact ⟨p + i * 8 + j, ⟨by omega, by omega⟩, hz⟩
  · simp [h1]

theorem setCanary_spec {g : Cfg} {tag : Bool} {p size : Nat} {canary : BitVec 64} {vm : Vm}
    (hrw : g.slabCanary = true → ∀ x, inRange (p + size - 8) 8 x → vm.prot (x / PAGE) = .rw) :
    ∃ vm', setCanary g tag canary p size vm = .ok vm' ∧ vm'.prot = vm.prot ∧
      (∀ x, ¬ (g.slabCanary = true ∧ inRange (p + size - 8) 8 x) → vm'.mem x = vm.mem x) ∧
      (tag = false → g.slabCanary = true → ∀ j, j < 8 → vm'.mem (p + size - 8 + j) = byteOf canary j) := by
  unfold setCanary
  cases tag with
  | true => exact ⟨vm, by simp, rfl, fun _ _ => rfl, fun h => (by cases h)⟩
  | false =>
  by_cases h1 : g.slabCanary = true
  · simp only [h1, Bool.not_true, Bool.or_false, Bool.false_eq_true, if_false, Vm.accessible_of_pages (hrw h1), if_true]
    refine ⟨_, rfl, rfl, ?_, ?_⟩
    · intro x hx
      simp only [true_and] at hx
      simp [hx]
    · intro _ _ j hj
      have : inRange (p + size - 8) 8 (p + size - 8 + j) := ⟨by omega, by omega⟩
      simp [this]
  · refine ⟨vm, by simp [h1], rfl, fun x _ => rfl, fun _ h => absurd h h1⟩

theorem clearMem_spec {p size : Nat} {vm : Vm} (hrw : ∀ x, inRange p size x → vm.prot (x / PAGE) = .rw) :
    clearMem p size vm = .ok (vm.fill p size 0#8) := by
  unfold clearMem
  rw [Vm.accessible_of_pages hrw, if_pos rfl]

theorem tagging_ok {g : Cfg} (hv : g.Valid) {ch : Choice} (h : tagging g ch = true) : g.mte = true := by
  unfold tagging at h
  rw [Bool.and_eq_true] at h
  exact hv.memtag h.1

/-- Effect of `prepareSlot` on memory. -/
structure Prepared (g : Cfg) (tag check : Bool) (reqSize size p : Nat) (canary : BitVec 64) (vm vm' : Vm) : Prop where
  prot : vm'.prot = vm.prot
  mem : ∀ x, ¬ (reqSize ≠ 0 ∧ ((g.slabCanary = true ∧ inRange (p + size - 8) 8 x) ∨ (tag = true ∧ inRange p size x))) → vm'.mem x = vm.mem x
  can : reqSize ≠ 0 → g.slabCanary = true → CanaryFine g canary (p + size - 8) vm'
  cleared : ∀ x, inRange p (size - g.canarySize) x → vm'.mem x = vm.mem x ∨ vm'.mem x = 0#8
  zero : reqSize ≠ 0 → (check = true ∧ g.writeAfterFreeCheck = true) ∨ tag = true → ∀ x, inRange p (size - g.canarySize) x → vm'.mem x = 0#8

theorem prepareSlot_spec {g : Cfg} {tag check : Bool} {reqSize size p : Nat} {canary : BitVec 64} {vm : Vm}
    (htag : tag = true → g.mte = true) (h16 : 16 ≤ size) (h8 : size % 8 = 0)
    (hrw : reqSize ≠ 0 → ∀ x, inRange p size x → vm.prot (x / PAGE) = .rw) :
    match prepareSlot g tag check reqSize size p canary vm with
    | .ok vm' => Prepared g tag check reqSize size p canary vm vm'
    | .fatal msg => check = true ∧ reqSize ≠ 0 ∧ msg = "detected write after free" ∧ g.writeAfterFreeCheck = true ∧
        ∃ x, inRange p (size - g.canarySize) x ∧ vm.mem x ≠ 0#8
    | _ => False := by
  unfold prepareSlot
  by_cases h0 : reqSize = 0
  · rw [if_pos h0]
    exact ⟨rfl, fun _ _ => rfl, fun h => absurd h0 h, fun _ _ => Or.inl rfl, fun h => absurd h0 h⟩
  · rw [if_neg h0]
    have hrw' := hrw h0
    obtain ⟨vm', e1, e2, e3, e4⟩ := setCanary_spec (g := g) (tag := tag) (p := p) (size := size) (canary := canary) (vm := vm)
      (fun _ x hx => hrw' x (by unfold inRange at *; omega))
    have hc : g.canarySize ≤ 8 ∧ g.canarySize % 8 = 0 ∧ (g.slabCanary = true → g.canarySize = 8) := by unfold Cfg.canarySize; split <;> simp_all
    have hw := writeAfterFreeCheck_spec (g := g) (tag := tag) (p := p) (n := size - g.canarySize) (vm := vm) (by omega)
      (fun x hx => hrw' x (by unfold inRange at *; omega))
    have e3' : ∀ x, inRange p (size - g.canarySize) x → vm'.mem x = vm.mem x := fun x hx => e3 x fun ⟨h1, h2⟩ => by
      have := hc.2.2 h1
      unfold inRange at *; omega
    have main : (tag = false → check = true → g.writeAfterFreeCheck = true → ∀ x, inRange p (size - g.canarySize) x → vm.mem x = 0#8) →
        match (if tag = true then clearMem p size vm' else .ok vm' : Res Vm) with
        | .ok vm' => Prepared g tag check reqSize size p canary vm vm'
        | .fatal msg => check = true ∧ reqSize ≠ 0 ∧ msg = "detected write after free" ∧ g.writeAfterFreeCheck = true ∧
            ∃ x, inRange p (size - g.canarySize) x ∧ vm.mem x ≠ 0#8
        | _ => False := by
      intro hz
      cases tag with
      | false =>
        rw [if_neg (by simp)]
        refine ⟨e2, fun x hx => e3 x fun hh => hx ⟨h0, Or.inl hh⟩, fun _ hs => Or.inl (e4 rfl hs), fun x hx => Or.inl (e3' x hx), fun _ h1 x hx => ?_⟩
        rw [e3' x hx]
        rcases h1 with ⟨h1, h2⟩ | h1
        · exact hz rfl h1 h2 x hx
        · cases h1
      | true =>
        rw [if_pos rfl, clearMem_spec (fun x hx => by rw [e2]; exact hrw' x hx)]
        have hin : ∀ x, inRange p size x → (vm'.fill p size 0#8).mem x = 0#8 := fun x hx => by simp [Vm.fill, hx]
        refine ⟨e2, fun x hx => ?_, fun _ _ => Or.inr ⟨htag rfl, fun j hj => hin _ (by unfold inRange; omega)⟩,
          fun x hx => Or.inr (hin x (by unfold inRange at *; omega)), fun _ _ x hx => hin x (by unfold inRange at *; omega)⟩
        have h1 : ¬ inRange p size x := fun hh => hx ⟨h0, Or.inr ⟨rfl, hh⟩⟩
        rw [show (vm'.fill p size 0#8).mem x = vm'.mem x by simp [Vm.fill, h1]]
        exact e3 x fun hh => hx ⟨h0, Or.inl hh⟩
    cases check with
    | false =>
      simp only [Bool.false_eq_true, if_false, Res.bind_ok, e1]
      have hm := main (by simp)
      simp only [Bool.false_eq_true] at hm
      exact hm
    | true =>
      simp only [if_true]
      cases hcheck : writeAfterFreeCheck g tag p (size - g.canarySize) vm with
      | ok u =>
        rw [hcheck] at hw
        simp only [Res.bind_ok, e1]
        have hm := main fun h _ => hw h
        simp only at hm
        exact hm
      | fatal m =>
        rw [hcheck] at hw
        simp only [Res.bind_fatal]
        exact ⟨trivial, h0, hw⟩
      | segv => rw [hcheck] at hw; exact hw
      | ub w => rw [hcheck] at hw; exact hw
      | hang => rw [hcheck] at hw; exact hw

/-- A slab with a clear bit: a free slot is found and marked. -/
theorem takeSlot_spec {g : Cfg} {slots m : Nat} {ch : Choice} {c : SC} (h1 : 1 ≤ slots) (h256 : slots ≤ 256)
    (hc : (c.slabs m).count = bitCount (c.slabs m).bitmap slots) (hlt : (c.slabs m).count < slots) :
    ∃ k, takeSlot g slots ch c m = .ok (k, c.setUsed m k) ∧ k < slots ∧ c.used m k = false := by
  have hex : ∃ s, s < slots ∧ (c.slabs m).bitmap.get s = false := by
    by_contra hno
    push Not at hno
    have : bitCount (c.slabs m).bitmap slots = slots := by
      rw [bitCount_full_iff]
      intro k hk
      have := hno k hk
      rw [Bitmap.get_eq] at this
      simpa using this
    omega
  have hr : u16Uniform (ch.u16 0) slots < slots := u16Uniform_lt _ (by omega)
  obtain ⟨s, hs⟩ := c33_total g.slotRandomize slots (u16Uniform (ch.u16 0) slots) _ h1 h256 hr hex
  obtain ⟨hs1, hs2⟩ := c33_sound g.slotRandomize slots (u16Uniform (ch.u16 0) slots) s _ h1 hr hs
  rw [Bitmap.get_eq] at hs2
  refine ⟨s, ?_, hs1, hs2⟩
  unfold takeSlot
  rw [hs]

/-- A slab whose metadata are those of `c.slabs m` with slot `k` marked used (links and canary aside). -/
structure SlabTook (s s' : Slab) (k : Nat) : Prop where
  bm : s'.bitmap = s.bitmap.set k
  qbm : s'.qbitmap = s.qbitmap
  cnt : s'.count = s.count + 1

/-- Marking a slot used preserves the bitmap invariant. -/
theorem Bits.take {g : Cfg} {cls : Nat} {c c' : SC} {loc : Nat → Loc} {m k : Nat} {v : Loc} (h : Bits g cls c loc)
    (hm : loc m ≠ .fresh) (hv : v ≠ .fresh) (hk : k < g.slots cls) (hf : c.used m k = false)
    (hs : ∀ i, i ≠ m → (c'.slabs i).bitmap = (c.slabs i).bitmap ∧ (c'.slabs i).count = (c.slabs i).count)
    (hz : ∀ i, i ≠ m → ¬ c.Active g i → c'.slabs i = c.slabs i)
    (ht : SlabTook (c.slabs m) (c'.slabs m) k)
    (e1 : c'.metaCount = c.metaCount) (e2 : c'.metaAllocated = c.metaAllocated) (e3 : c'.metaUnguarded = c.metaUnguarded) :
    Bits g cls c' (Loc.set loc m v) := by
  have hact : ∀ i, c'.Active g i ↔ c.Active g i := fun i => by unfold SC.Active; rw [e1]
  have hma : c.Active g m := by by_contra hc; exact hm ((h.fresh m).mpr hc)
  constructor
  · rw [e3, e1]; exact h.ung
  · rw [e3]; exact h.unglt
  · rw [e2]; exact h.mpos
  · rw [e2]; exact h.mle
  · rw [e1, e2]; exact h.mcount
  · intro i hi; rw [e2]; exact h.act i ((hact i).mp hi)
  · intro i
    rw [hact i]
    by_cases hi : i = m
    · subst hi; rw [Loc.set_same]; simp [hv, hma]
    · rw [Loc.set_ne hi]; exact h.fresh i
  · intro i hi
    rw [hact i] at hi
    have him : i ≠ m := fun e => hi (e ▸ hma)
    rw [hz i him hi]
    exact h.zero i hi
  · intro i
    by_cases hi : i = m
    · subst hi
      rw [ht.cnt, ht.bm, h.cnt i, bitCount_set hk hf]
    · rw [(hs i hi).1, (hs i hi).2]; exact h.cnt i
  · intro i b hb
    unfold SC.used
    by_cases hi : i = m
    · subst hi
      rw [ht.bm, Bitmap.bit_set]
      have : b ≠ k := by omega
      simp only [this, decide_false, Bool.false_or]
      exact h.hi i b hb
    · rw [(hs i hi).1]; exact h.hi i b hb

theorem QArr.congr {g : Cfg} {base cls : Nat} {c c' : SC} {ql : Nat → Nat → QLoc} (h : QArr g base cls c ql)
    (hu : ∀ i k, c.used i k = true → c'.used i k = true) (hq : ∀ i k, c'.quar i k = c.quar i k)
    (e1 : c'.qrand = c.qrand) (e2 : c'.qqueue = c.qqueue) (e3 : c'.qidx = c.qidx) : QArr g base cls c' ql where
  bit := fun i k => by rw [hq]; exact h.bit i k
  sub := fun i k hk => hu i k (h.sub i k hk)
  r1 := fun i k j hj => by rw [e1]; exact h.r1 i k j hj
  r2 := fun j hj => h.r2 j (by rw [← e1]; exact hj)
  q1 := fun i k j hj => by rw [e2]; exact h.q1 i k j hj
  q2 := fun j hj => h.q2 j (by rw [← e2]; exact hj)
  idx := fun h0 => by rw [e3]; exact h.idx h0

theorem SCInv.active_iff {g : Cfg} {base cls : Nat} {c : SC} {P E F : List Nat} {loc : Nat → Loc} {ql : Nat → Nat → QLoc}
    (h : SCInv g base cls c P E F loc ql) (i : Nat) : c.Active g i ↔ loc i ≠ .fresh := by
  rw [ne_eq, h.bits.fresh i, not_not]

theorem SCInv.lt_max {g : Cfg} {base cls : Nat} {c : SC} {P E F : List Nat} {loc : Nat → Loc} {ql : Nat → Nat → QLoc}
    (h : SCInv g base cls c P E F loc ql) {i : Nat} (hi : loc i ≠ .fresh) : i < c.metaAllocated ∧ i < g.metaMax cls := by
  have := h.bits.act i ((h.active_iff i).mpr hi)
  have := h.bits.mle
  omega

theorem count_lt {g : Cfg} {cls : Nat} {c : SC} {loc : Nat → Loc} (h : Bits g cls c loc) (i : Nat) :
    (c.slabs i).count ≤ g.slots cls := by rw [h.cnt i]; exact bitCount_le _ _

theorem setUsed_slab (c : SC) (m k : Nat) (h : (c.slabs m).count < 65535) :
    (c.setUsed m k).slabs m =
      { c.slabs m with bitmap := (c.slabs m).bitmap.set k, count := (c.slabs m).count + 1 } := by
  unfold SC.setUsed SC.upd
  simp only [if_true]
  rw [Nat.mod_eq_of_lt (by omega)]

theorem setUsed_other (c : SC) {m i : Nat} (k : Nat) (h : i ≠ m) : (c.setUsed m k).slabs i = c.slabs i := by
  unfold SC.setUsed SC.upd
  simp [h]

/-- Accessibility of the slots of an accessible slab. -/
theorem slot_rw {g : Cfg} {base cls : Nat} {loc : Nat → Loc} {vm : Vm} (hcls : cls < nClasses g) (h : SCVm g base cls loc vm)
    {i k : Nat} (hl : (loc i).isRw = true) (h0 : g.classSize cls ≠ 0) (hk : k < g.slots cls) {x : Nat}
    (hx : inRange (slotAddr g base cls i k) (g.slotSize cls) x) : vm.prot (x / PAGE) = .rw :=
  h.rw i x hl h0 (slot_range_slab hcls hk hx)

/-- SCVm when only bytes of accessible slabs change and accessibility stays the same. -/
theorem SCVm.congr {g : Cfg} {base cls : Nat} {loc loc' : Nat → Loc} {vm vm' : Vm} (h : SCVm g base cls loc vm)
    (hl : ∀ i, (loc' i).isRw = (loc i).isRw) (hp : vm'.prot = vm.prot)
    (hm : ∀ x, vm.prot (x / PAGE) ≠ .rw → vm'.mem x = vm.mem x) : SCVm g base cls loc' vm' where
  rw := fun i x hi h0 hx => by rw [hp]; exact h.rw i x (by rw [← hl]; exact hi) h0 hx
  off := fun i x hi hn hx => by
    have := h.off i x hi (by rw [← hl]; exact hn) hx
    rw [hp]
    refine ⟨this.1, ?_⟩
    rw [hm x (by rw [this.1]; simp)]
    exact this.2

end HM
