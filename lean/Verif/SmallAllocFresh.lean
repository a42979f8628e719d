import Verif.SmallAllocBranches
/-
The branches of `allocateSmall` that use a cached, purged or new slab, and the specification of `allocateSmall`.
-/
namespace HM

theorem nodup_length_le {l : List Nat} {n : Nat} (hn : l.Nodup) (hl : ∀ x, x ∈ l → x < n) : l.length ≤ n := by
  have h1 : l.toFinset ⊆ Finset.range n := fun x hx => by
    rw [List.mem_toFinset] at hx
    exact Finset.mem_range.mpr (hl x hx)
  have h2 := Finset.card_le_card h1
  rwa [List.toFinset_card_of_nodup hn, Finset.card_range] at h2

section
variable {g : Cfg} {base cls : Nat}

/-- The total of the cached slabs fits the class region. -/
theorem SCInv.etot_le {c : SC} {P E F : List Nat} {loc : Nat → Loc} {ql : Nat → Nat → QLoc}
    (h : SCInv g base cls c P E F loc ql) : E.length * g.slabSize cls ≤ g.classRegionSize := by
  have h1 : E.length ≤ g.metaMax cls := nodup_length_le h.lists.en fun x hx =>
    (h.lt_max (by rw [(h.lists.em x).mp hx]; simp)).2
  exact (Nat.mul_le_mul_right _ h1).trans (Nat.div_mul_le_self _ _)

/-- Metadata invariant under changes that touch neither bitmaps nor links. -/
theorem SCInv.congr {c c' : SC} {P E F : List Nat} {loc : Nat → Loc} {ql : Nat → Nat → QLoc}
    (h : SCInv g base cls c P E F loc ql) (hl : SameLinks c c') (het : c'.emptyTotal = c.emptyTotal)
    (hs : ∀ i, (c'.slabs i).bitmap = (c.slabs i).bitmap ∧ (c'.slabs i).count = (c.slabs i).count ∧
      (c'.slabs i).qbitmap = (c.slabs i).qbitmap)
    (hz : ∀ i, ¬ c.Active g i → c'.slabs i = c.slabs i)
    (e1 : c'.metaCount = c.metaCount) (e2 : c'.metaAllocated = c.metaAllocated) (e3 : c'.metaUnguarded = c.metaUnguarded)
    (e4 : c'.qrand = c.qrand) (e5 : c'.qqueue = c.qqueue) (e6 : c'.qidx = c.qidx) :
    SCInv g base cls c' P E F loc ql := by
  have hact : ∀ i, c'.Active g i ↔ c.Active g i := fun i => by unfold SC.Active; rw [e1]
  have hu : ∀ i k, c'.used i k = c.used i k := fun i k => by unfold SC.used; rw [(hs i).1]
  refine ⟨h.lists.congr hl, het.trans h.etot, ⟨?_, ?_, ?_, ?_, ?_, ?_, ?_, ?_, ?_, ?_⟩, ?_, ?_, h.notransit⟩
  · rw [e3, e1]; exact h.bits.ung
  · rw [e3]; exact h.bits.unglt
  · rw [e2]; exact h.bits.mpos
  · rw [e2]; exact h.bits.mle
  · rw [e1, e2]; exact h.bits.mcount
  · intro i hi; rw [e2]; exact h.bits.act i ((hact i).mp hi)
  · intro i; rw [hact i]; exact h.bits.fresh i
  · intro i hi; rw [hact i] at hi; rw [hz i hi]; exact h.bits.zero i hi
  · intro i; rw [(hs i).2.1, (hs i).1]; exact h.bits.cnt i
  · intro i k hk; rw [hu]; exact h.bits.hi i k hk
  · intro i; rw [(hs i).2.1]; exact h.cntOk i
  · exact h.qarr.congr (fun i k hh => by rw [hu]; exact hh) (fun i k => by unfold SC.quar; rw [(hs i).2.2]) e4 e5 e6

/-- The first slot of a slab goes to the partial list, or to no list if it is the only slot. -/
theorem first_count (hcls : cls < nClasses g) {n : Nat} (h : n = 0) :
    CountOk (g.slots cls) (if g.slots cls > 1 then Loc.part else Loc.out) (n + 1) := by
  have := (classGeo g hcls).slots_pos
  subst h
  split
  · exact ⟨by omega, by omega⟩
  · show 0 + 1 = g.slots cls
    omega

theorem first_lists {b : Prop} [Decidable b] {c : SC} {E F : List Nat} {loc : Nat → Loc} {m : Nat}
    (h : Lists g c (if decide b then [m] else []) E F (Loc.set loc m (if decide b then .part else .out))) :
    Lists g c (if b then [m] else []) E F (Loc.set loc m (if b then .part else .out)) := by
  by_cases hb : b <;> simpa [hb] using h

/-- State after h_malloc.c:608-615. -/
def emptyTaken (g : Cfg) (cls : Nat) (c : SC) (m : Nat) : SC :=
  let c := { c with emptyHead := (c.slabs m).next, emptyTotal := sub64 c.emptyTotal (g.slabSize cls) }
  let c := c.upd m fun s => { s with next := none, prev := none }
  { c with partialHead := if g.slots cls > 1 then some m else none }

theorem allocFromEmpty_eq (reqSize : Nat) (ch : Choice) (c : SC) (vm : Vm) (e : Errno) (m : Nat) :
    allocFromEmpty g base cls reqSize ch c vm e m = (do
      let (slot, c) ← takeSlot g (g.slots cls) ch (emptyTaken g cls c m) m
      let p := slotPointer (g.slotSize cls) (slabAddr base (g.slabSize cls) m) slot
      let vm ← prepareSlot g (tagging g ch) true reqSize (g.slotSize cls) p (c.slabs m).canary vm
      .ok (some p, c.statsAlloc g (g.slotSize cls), vm, e)) := rfl

theorem allocFromEmpty_spec {c : SC} {vm : Vm} {e : Errno} {P E F : List Nat} {loc : Nat → Loc} {ql : Nat → Nat → QLoc}
    {reqSize m : Nat} {ch : Choice} (hv : g.Valid) (hcls : cls < nClasses g)
    (hreq : reqSize = 0 ↔ g.classSize cls = 0) (h : SCInv g base cls c P E F loc ql) (hvm : SCVm g base cls loc vm)
    (hp0 : c.partialHead = none) (hm : c.emptyHead = some m) :
    AllocPost g base cls ch c vm e loc ql (allocFromEmpty g base cls reqSize ch c vm e m) := by
  have G := classGeo g hcls
  have hP0 : P = [] := by
    have := h.lists.ph; rw [hp0] at this; exact List.head?_eq_none_iff.mp this.symm
  subst hP0
  obtain ⟨E1, hE⟩ : ∃ E1, E = m :: E1 := by
    have := h.lists.eh; rw [hm] at this
    cases E with
    | nil => simp at this
    | cons a as => simp at this; exact ⟨as, by rw [this]⟩
  subst hE
  have hlm : loc m = .empty := (h.lists.em m).mp (by simp)
  have hcm := h.cntOk m
  rw [hlm] at hcm
  have hc0 : (c.slabs m).count = 0 := hcm
  have hrw : (loc m).isRw = true := by rw [hlm]; rfl
  rw [allocFromEmpty_eq]
  generalize hc1 : emptyTaken g cls c m = c1
  have hsm : c1.slabs m = { c.slabs m with next := none, prev := none } := by rw [← hc1]; simp [emptyTaken, SC.upd]
  have hso1 : ∀ i, i ≠ m → c1.slabs i = c.slabs i := fun i hi => by rw [← hc1]; simp [emptyTaken, SC.upd, hi]
  obtain ⟨k, hk1, hk2, hk3⟩ := takeSlot_spec (g := g) (ch := ch) (c := c1) (m := m) G.slots_pos G.slots_le
    (by rw [hsm]; exact h.bits.cnt m) (by rw [hsm]; have := G.slots_pos; simp only; omega)
  have hk3' : c.used m k = false := by unfold SC.used at hk3 ⊢; rw [hsm] at hk3; exact hk3
  have hsl := setUsed_slab c1 m k (by rw [hsm]; simp only; omega)
  have hso : ∀ i, i ≠ m → (c1.setUsed m k).slabs i = c.slabs i := fun i hi => by rw [setUsed_other c1 k hi, hso1 i hi]
  rw [hsm] at hsl
  simp only [hk1, Res.bind_ok]
  rw [show slotPointer (g.slotSize cls) (slabAddr base (g.slabSize cls) m) k = slotAddr g base cls m k from rfl]
  have hp := prepareSlot_spec (g := g) (tag := tagging g ch) (check := true) (reqSize := reqSize) (size := g.slotSize cls)
    (p := slotAddr g base cls m k) (canary := ((c1.setUsed m k).slabs m).canary) (vm := vm) (tagging_ok hv) G.size_ge
    (by have := G.size_mod; omega)
    (fun h0 x hx => slot_rw hcls hvm hrw (fun hz => h0 (hreq.mpr hz)) hk2 hx)
  have ht : SlabTook (c.slabs m) (((c1.setUsed m k).statsAlloc g (g.slotSize cls)).slabs m) k := by
    rw [SC.statsAlloc_eq]
    show SlabTook _ ((c1.setUsed m k).slabs m) k
    rw [hsl]; exact ⟨rfl, rfl, rfl⟩
  have hso' : ∀ i, i ≠ m → ((c1.setUsed m k).statsAlloc g (g.slotSize cls)).slabs i = c.slabs i := fun i hi => by
    rw [SC.statsAlloc_eq]; exact hso i hi
  have hf : (c1.setUsed m k) = { c1 with slabs := (c1.setUsed m k).slabs } := rfl
  have hinv : SCInv g base cls ((c1.setUsed m k).statsAlloc g (g.slotSize cls)) (if g.slots cls > 1 then [m] else []) E1 F
      (Loc.set loc m (if g.slots cls > 1 then .part else .out)) ql := by
    refine SCInv.took (c1 := c) (c := c) h.bits (by rw [hlm]; simp) (fun i _ => h.cntOk i) h.qarr (fun _ _ => rfl)
      (fun _ _ => rfl) h.notransit ?_ ?_ ?_ (first_count hcls hc0) hk2 hk3'
      (fun i hi => by rw [hso' i hi]; exact ⟨rfl, rfl, rfl⟩) (fun i hi _ => hso' i hi) ht ?_ ?_ ?_ ?_ ?_ ?_
    · refine first_lists (Lists.takeEmpty h.lists ?_ ?_ ?_ ?_ ?_ ?_ ?_)
      · intro i hi; rw [hso' i hi]; exact ⟨rfl, rfl⟩
      · rw [SC.statsAlloc_eq]
        show ((c1.setUsed m k).slabs m).next = none ∧ _
        rw [hsl]; exact ⟨rfl, rfl⟩
      · rw [SC.statsAlloc_eq, hf, ← hc1]; simp [emptyTaken]
      · rw [SC.statsAlloc_eq, hf, ← hc1]; rfl
      · rw [SC.statsAlloc_eq, hf, ← hc1]; rfl
      · rw [SC.statsAlloc_eq, hf, ← hc1]; rfl
      · rw [SC.statsAlloc_eq, hf, ← hc1]; rfl
    · rw [SC.statsAlloc_eq, hf, ← hc1]
      show sub64 c.emptyTotal (g.slabSize cls) = _
      have h1 := h.etot
      have h2 := h.etot_le
      have h3 := hv.classRegionMax
      rw [List.length_cons, Nat.add_mul, Nat.one_mul] at h1 h2
      rw [h1, sub64_of_le (by omega) (by omega)]
      omega
    · split <;> simp
    · rw [SC.statsAlloc_eq, hf, ← hc1]; rfl
    · rw [SC.statsAlloc_eq, hf, ← hc1]; rfl
    · rw [SC.statsAlloc_eq, hf, ← hc1]; rfl
    · rw [SC.statsAlloc_eq, hf, ← hc1]; rfl
    · rw [SC.statsAlloc_eq, hf, ← hc1]; rfl
    · rw [SC.statsAlloc_eq, hf, ← hc1]; rfl
  have hcan : (((c1.setUsed m k).statsAlloc g (g.slotSize cls)).slabs m).canary = ((c1.setUsed m k).slabs m).canary := by
    rw [SC.statsAlloc_eq]
  have htk : Taken g cls c ((c1.setUsed m k).statsAlloc g (g.slotSize cls)) m k := by
    refine ⟨hk2, (h.lt_max (by rw [hlm]; simp)).2, hk3', used_took (fun i hi => by rw [hso' i hi]) ht,
      quar_took (fun i hi => by rw [hso' i hi]) ht, ?_, ?_, ?_, ?_, ?_, ?_, ?_⟩
    · intro a _
      by_cases ha : a = m
      · subst ha; rw [hcan, hsl]
      · rw [hso' a ha]
    all_goals rw [SC.statsAlloc_eq, hf, ← hc1]; rfl
  have hvd : ∀ b : Prop, [Decidable b] → ((if b then Loc.part else Loc.out) = .part ∨ (if b then Loc.part else Loc.out) = .out) :=
    fun b _ => by split <;> simp
  have hvrw : ∀ b : Prop, [Decidable b] → (if b then Loc.part else Loc.out).isRw = true := fun b _ => by split <;> rfl
  cases hprep : prepareSlot g (tagging g ch) true reqSize (g.slotSize cls) (slotAddr g base cls m k) ((c1.setUsed m k).slabs m).canary vm with
  | ok vm' =>
    rw [hprep] at hp
    simp only [Res.bind_ok]
    have htv := takenVm_rw (base := base) hcls hreq hrw hp
    refine ⟨rfl, m, k, _, rfl, hvd _, ⟨_, E1, F, hinv⟩, ?_, htk, ?_, ?_⟩
    · refine scvm_rw hcls hvm hk2 hrw ?_ htv
      intro a
      by_cases ha : a = m
      · subst ha; rw [Loc.set_same, hvrw, hrw]
      · rw [Loc.set_ne ha]
    · rw [hcan]; exact htv
    · rw [if_neg (by rintro ⟨_, hh⟩; rw [hrw] at hh; exact absurd hh (by simp)), SC.statsAlloc_eq, hf, ← hc1]
      rfl
  | fatal msg =>
    rw [hprep] at hp
    simp only [Res.bind_fatal]
    obtain ⟨_, h0, h1, h2, x, h3, h4⟩ := hp
    exact Or.inr ⟨h1, h2, fun hz => h0 (hreq.mpr hz), m, k, x, hk2, hrw, hk3', h3, h4⟩
  | segv => rw [hprep] at hp; exact hp
  | ub w => rw [hprep] at hp; exact hp
  | hang => rw [hprep] at hp; exact hp

/-! ### Purged and new slabs -/

/-- Making an inaccessible slab accessible. -/
theorem protect_slab {loc : Nat → Loc} {vm : Vm} {i : Nat} {r : SysRes} (hb : BaseOk g base) (hcls : cls < nClasses g)
    (hvm : SCVm g base cls loc vm) (hi : i < g.metaMax cls) (hl : (loc i).isRw = false) :
    memoryProtectRw vm r (slabAddr base (g.slabSize cls) i) (g.slabSize cls) =
      match r with
      | .other => .fatal "non-ENOMEM mprotect failure"
      | .enomem => .ok (vm, true)
      | .ok => .ok (vm.setProt (slabAddr base (g.slabSize cls) i) (g.slabSize cls) .rw, false) := by
  have G := classGeo g hcls
  unfold memoryProtectRw
  rw [if_neg (by have := slab_mod hb hcls i; omega)]
  cases r with
  | other => rfl
  | enomem => rfl
  | ok =>
    simp only
    rw [if_pos]
    rw [Vm.allPages_iff]
    intro pg hpg
    rw [inPages_iff (slab_mod hb hcls i) G.slab_mod] at hpg
    have := (hvm.off i (pg * PAGE) hi (by rw [hl]; simp) hpg).1
    rw [Nat.mul_div_cancel _ (by decide)] at this
    rw [this]; rfl

/-- The protections after slab `m`, inaccessible before, has been opened for use (or, in the zero byte class, not). -/
def openSlab (g : Cfg) (base cls m : Nat) (vm : Vm) : Vm :=
  if g.classSize cls ≠ 0 then vm.setProt (slabAddr base (g.slabSize cls) m) (g.slabSize cls) .rw else vm

theorem openSlab_mem (vm : Vm) (m : Nat) : (openSlab g base cls m vm).mem = vm.mem := by
  unfold openSlab; split <;> rfl

theorem openSlab_prot (vm : Vm) (m pg : Nat) : (openSlab g base cls m vm).prot pg =
    if g.classSize cls ≠ 0 ∧ inPages (slabAddr base (g.slabSize cls) m) (g.slabSize cls) pg then .rw else vm.prot pg := by
  unfold openSlab Vm.setProt
  by_cases h : g.classSize cls ≠ 0
  · simp [h]
  · simp [h]

theorem openSlab_scvm {loc : Nat → Loc} {vm : Vm} {m : Nat} {v : Loc} (hb : BaseOk g base) (hcls : cls < nClasses g)
    (hvm : SCVm g base cls loc vm) (hv : v.isRw = true) :
    SCVm g base cls (Loc.set loc m v) (openSlab g base cls m vm) := by
  have G := classGeo g hcls
  have hpg : ∀ i x, inRange (slabAddr base (g.slabSize cls) i) (g.slabSize cls) x →
      inPages (slabAddr base (g.slabSize cls) m) (g.slabSize cls) (x / PAGE) → i = m := fun i x hx hp =>
    slab_disjoint hcls hx ((inPages_addr (slab_mod hb hcls m) G.slab_mod).mp hp)
  constructor
  · intro i x hi h0 hx
    rw [openSlab_prot]
    by_cases him : i = m
    · subst him
      rw [if_pos ⟨h0, (inPages_addr (slab_mod hb hcls i) G.slab_mod).mpr hx⟩]
    · rw [if_neg (fun hh => him (hpg i x hx hh.2))]
      rw [Loc.set_ne him] at hi
      exact hvm.rw i x hi h0 hx
  · intro i x hi hn hx
    rw [openSlab_prot, openSlab_mem]
    by_cases him : i = m
    · subst him
      rw [Loc.set_same] at hn
      have h0 : g.classSize cls = 0 := by by_contra h0; exact hn ⟨hv, h0⟩
      rw [if_neg (by simp [h0])]
      exact hvm.off i x hi (by simp [h0]) hx
    · rw [if_neg (fun hh => him (hpg i x hx hh.2))]
      rw [Loc.set_ne him] at hn
      exact hvm.off i x hi hn hx

/-- Memory effect of the first allocation from an inaccessible slab. -/
theorem takenVm_open {tag : Bool} {loc : Nat → Loc} {canary : BitVec 64} {vm vm' : Vm} {i k reqSize : Nat} (hcls : cls < nClasses g)
    (hreq : reqSize = 0 ↔ g.classSize cls = 0) (hvm : SCVm g base cls loc vm) (hi : i < g.metaMax cls)
    (hk : k < g.slots cls) (hl : (loc i).isRw = false)
    (h : Prepared g tag false reqSize (g.slotSize cls) (slotAddr g base cls i k) canary (openSlab g base cls i vm) vm') :
    TakenVm g tag base cls loc canary vm vm' i k := by
  obtain ⟨h1, h2, h3, h5, _⟩ := h
  have h0 : reqSize ≠ 0 ↔ g.classSize cls ≠ 0 := not_congr hreq
  rw [openSlab_mem] at h2 h5
  constructor
  · intro x hx; exact h2 x (fun hh => hx ⟨h0.mp hh.1, hh.2⟩)
  · intro hc hs; exact h3 (h0.mpr hc) hs
  · exact h5
  · intro hc _ x hx
    rcases h5 x hx with e | e
    · rw [e]; exact (hvm.off i x hi (by simp [hl]) (slot_range_slab hcls hk (by unfold inRange at *; omega))).2
    · exact e
  · intro pg
    rw [h1, openSlab_prot]
    simp [hl]

theorem scvm_open {tag : Bool} {loc : Nat → Loc} {canary : BitVec 64} {vm vm' : Vm} {i k : Nat} {v : Loc} (hb : BaseOk g base)
    (hcls : cls < nClasses g) (hvm : SCVm g base cls loc vm) (hk : k < g.slots cls) (hl : (loc i).isRw = false)
    (hv : v.isRw = true) (h : TakenVm g tag base cls loc canary vm vm' i k) : SCVm g base cls (Loc.set loc i v) vm' := by
  have hopen := openSlab_scvm (m := i) (v := v) hb hcls hvm hv
  refine hopen.congr (fun _ => rfl) ?_ ?_
  · funext pg; rw [h.prot, openSlab_prot]; simp [hl]
  · intro x hx
    rw [openSlab_mem]
    refine h.mem x ?_
    rintro ⟨hc, ⟨_, hr⟩ | ⟨_, hr⟩⟩
    · exact hx (slot_rw hcls hopen (by rw [Loc.set_same]; exact hv) hc hk (canary_in_slot hcls hr))
    · exact hx (slot_rw hcls hopen (by rw [Loc.set_same]; exact hv) hc hk hr)

/-- Last part of both branches: `c1` is the state before the slot is taken; slab `m` has no used slot. -/
theorem openTail_spec {c c0 c1 : SC} {vm : Vm} {e : Errno} {E F : List Nat} {loc : Nat → Loc} {ql : Nat → Nat → QLoc}
    {reqSize m : Nat} {ch : Choice} (hv : g.Valid) (hb : BaseOk g base) (hcls : cls < nClasses g)
    (hreq : reqSize = 0 ↔ g.classSize cls = 0) (hvm : SCVm g base cls loc vm)
    (hm : m < g.metaMax cls) (hl : (loc m).isRw = false)
    -- metadata before, with `m` already counted as taken
    (loc0 : Nat → Loc) (hloc0 : ∀ v, Loc.set loc0 m v = Loc.set loc m v) (hl0 : loc0 m ≠ .fresh)
    (hbits : Bits g cls c0 loc0) (hco : ∀ i, i ≠ m → CountOk (g.slots cls) (loc i) (c0.slabs i).count)
    (hq : QArr g base cls c ql) (hqc : ∀ i b, c0.used i b = c.used i b) (hqq : ∀ i b, c0.quar i b = c.quar i b)
    (hnt : ∀ i k, ql i k ≠ .transit) (hcc : (c.slabs m).count = 0)
    (hc0 : (c0.slabs m).count = 0) (hs : ∀ i, i ≠ m → c1.slabs i = c0.slabs i ∧ c0.slabs i = c.slabs i)
    (hsm : (c1.slabs m).bitmap = (c0.slabs m).bitmap ∧ (c1.slabs m).count = (c0.slabs m).count ∧
      (c1.slabs m).qbitmap = (c0.slabs m).qbitmap)
    (hlists : ∀ c2 : SC, SameLinks c1 c2 → Lists g c2 (if g.slots cls > 1 then [m] else []) E F
      (Loc.set loc m (if g.slots cls > 1 then .part else .out)))
    (het : c1.emptyTotal = E.length * g.slabSize cls)
    (e1 : c1.metaCount = c0.metaCount) (e2 : c1.metaAllocated = c0.metaAllocated) (e3 : c1.metaUnguarded = c0.metaUnguarded)
    (e4 : c1.qrand = c.qrand) (e5 : c1.qqueue = c.qqueue) (e6 : c1.qidx = c.qidx)
    (e7 : c1.allocated = c.allocated) (e8 : c1.nmalloc = c.nmalloc) (e9 : c1.ndalloc = c.ndalloc)
    (e10 : c1.slabAllocated = c.slabAllocated) :
    AllocPost g base cls ch c vm e loc ql (do
      let (slot, c) ← takeSlot g (g.slots cls) ch c1 m
      let p := slotPointer (g.slotSize cls) (slabAddr base (g.slabSize cls) m) slot
      let vm ← prepareSlot g (tagging g ch) false reqSize (g.slotSize cls) p (c.slabs m).canary (openSlab g base cls m vm)
      .ok (some p, (c.statsSlabAlloc g (g.slabSize cls)).statsAlloc g (g.slotSize cls), vm, e)) := by
  have G := classGeo g hcls
  obtain ⟨k, hk1, hk2, hk3⟩ := takeSlot_spec (g := g) (ch := ch) (c := c1) (m := m) G.slots_pos G.slots_le
    (by rw [hsm.1, hsm.2.1]; exact hbits.cnt m) (by rw [hsm.2.1]; have := G.slots_pos; omega)
  have hk3' : c0.used m k = false := by unfold SC.used at hk3 ⊢; rw [hsm.1] at hk3; exact hk3
  have hsl := setUsed_slab c1 m k (by rw [hsm.2.1]; omega)
  have hso : ∀ i, i ≠ m → (c1.setUsed m k).slabs i = c0.slabs i := fun i hi => by rw [setUsed_other c1 k hi, (hs i hi).1]
  simp only [hk1, Res.bind_ok]
  rw [show slotPointer (g.slotSize cls) (slabAddr base (g.slabSize cls) m) k = slotAddr g base cls m k from rfl]
  have hvrw : ∀ b : Prop, [Decidable b] → (if b then Loc.part else Loc.out).isRw = true := fun b _ => by split <;> rfl
  have hopen := openSlab_scvm (m := m) (v := if g.slots cls > 1 then .part else .out) hb hcls hvm (hvrw _)
  have hp := prepareSlot_spec (g := g) (tag := tagging g ch) (check := false) (reqSize := reqSize) (size := g.slotSize cls)
    (p := slotAddr g base cls m k) (canary := ((c1.setUsed m k).slabs m).canary) (vm := openSlab g base cls m vm) (tagging_ok hv) G.size_ge
    (by have := G.size_mod; omega)
    (fun h0 x hx => slot_rw hcls hopen (by rw [Loc.set_same]; exact hvrw _) (fun hz => h0 (hreq.mpr hz)) hk2 hx)
  generalize hc2 : ((c1.setUsed m k).statsSlabAlloc g (g.slabSize cls)).statsAlloc g (g.slotSize cls) = c2
  have hc2' : c2 = { c1 with
      slabs := (c1.setUsed m k).slabs,
      slabAllocated := (if g.stats then add64 c1.slabAllocated (g.slabSize cls) else c1.slabAllocated),
      allocated := (if g.stats then add64 c1.allocated (g.slotSize cls) else c1.allocated),
      nmalloc := (if g.stats then add64 c1.nmalloc 1 else c1.nmalloc) } := by
    rw [← hc2, SC.statsAlloc_eq, SC.statsSlabAlloc_eq]; rfl
  have hc2s : c2.slabs = (c1.setUsed m k).slabs := by rw [hc2']
  have ht : SlabTook (c0.slabs m) (c2.slabs m) k := by
    rw [hc2s, hsl]
    exact ⟨by show Bitmap.set _ _ = _; rw [hsm.1], by show Slab.qbitmap _ = _; rw [← hsm.2.2], by show _ + 1 = _; rw [hsm.2.1]⟩
  have hso' : ∀ i, i ≠ m → c2.slabs i = c0.slabs i := fun i hi => by rw [hc2s]; exact hso i hi
  have hinv : SCInv g base cls c2 (if g.slots cls > 1 then [m] else []) E F
      (Loc.set loc m (if g.slots cls > 1 then .part else .out)) ql := by
    rw [← hloc0]
    refine SCInv.took (c1 := c0) (c := c) hbits hl0 (fun i hi => ?_) hq hqc hqq hnt ?_ ?_ ?_ (first_count hcls hc0) hk2 hk3'
      (fun i hi => by rw [hso' i hi]; exact ⟨rfl, rfl, rfl⟩) (fun i hi _ => hso' i hi) ht ?_ ?_ ?_ ?_ ?_ ?_
    · have := congrFun (hloc0 .out) i
      rw [Loc.set_ne hi, Loc.set_ne hi] at this
      rw [this]; exact hco i hi
    · rw [hloc0]
      refine hlists c2 ⟨?_, ?_, ?_, ?_, ?_, ?_, ?_⟩
      · intro i
        by_cases hi : i = m
        · subst hi; rw [hc2s, hsl]
        · rw [hso' i hi, (hs i hi).1]
      · intro i
        by_cases hi : i = m
        · subst hi; rw [hc2s, hsl]
        · rw [hso' i hi, (hs i hi).1]
      all_goals rw [hc2']
    · rw [hc2']; exact het
    · split <;> simp
    · rw [hc2']; exact e1
    · rw [hc2']; exact e2
    · rw [hc2']; exact e3
    · rw [hc2']; exact e4
    · rw [hc2']; exact e5
    · rw [hc2']; exact e6
  have htk : Taken g cls c c2 m k := by
    refine ⟨hk2, hm, by rw [← hqc]; exact hk3',
      fun a b => by rw [← hqc]; exact used_took (fun i hi => by rw [hso' i hi]) ht a b,
      fun a b => by rw [← hqq]; exact quar_took (fun i hi => by rw [hso' i hi]) ht a b, ?_, ?_, ?_, ?_, ?_, ?_, ?_⟩
    · intro a ha0
      by_cases ha : a = m
      · subst ha; omega
      · rw [hso' a ha, (hs a ha).2]
    · rw [hc2']; exact e4
    · rw [hc2']; exact e5
    · rw [hc2']; exact e6
    · rw [hc2']; simp only [e7]
    · rw [hc2']; simp only [e8]
    · rw [hc2']; exact e9
  have hcan : (c2.slabs m).canary = ((c1.setUsed m k).slabs m).canary := by rw [hc2s]
  cases hprep : prepareSlot g (tagging g ch) false reqSize (g.slotSize cls) (slotAddr g base cls m k) ((c1.setUsed m k).slabs m).canary
      (openSlab g base cls m vm) with
  | ok vm' =>
    rw [hprep] at hp
    simp only [Res.bind_ok]
    have htv := takenVm_open hcls hreq hvm hm hk2 hl hp
    refine ⟨rfl, m, k, _, rfl, ?_, ⟨_, E, F, hinv⟩, ?_, htk, ?_, ?_⟩
    · split <;> simp
    · exact scvm_open hb hcls hvm hk2 hl (hvrw _) htv
    · rw [hcan]; exact htv
    · rw [hc2']; simp only [hl, and_true, e10]
  | fatal msg =>
    rw [hprep] at hp
    exact absurd hp.1 (by simp)
  | segv => rw [hprep] at hp; exact hp
  | ub w => rw [hprep] at hp; exact hp
  | hang => rw [hprep] at hp; exact hp

end
end HM
