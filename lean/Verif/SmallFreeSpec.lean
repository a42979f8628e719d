import Verif.SmallRelease
/-
Specification of `deallocateSmall` and `memoryCorruptionCheckSmall`: every outcome, for every address, in every state
satisfying the invariant.
-/
namespace HM

section
variable {g : Cfg} {base cls : Nat}

/-- Effect of freeing slot `(i, k)`. `out`: the slot that became available for reuse, if any. `r`: the slab of `out` was
returned to the system. -/
structure DeallocOk (g : Cfg) (base cls : Nat) (ch : Choice) (c c' : SC) (vm vm' : Vm) (e e' : Errno) (loc loc' : Nat → Loc)
    (ql ql' : Nat → Nat → QLoc) (i k : Nat) (out : Option (Nat × Nat)) (r : Bool) : Prop where
  wasUsed : c.used i k = true
  notQuar : c.quar i k = false
  intact : tagging g ch = false → g.classSize cls ≠ 0 → g.slabCanary = true →
    CanaryFine g (c.slabs i).canary (slotAddr g base cls i k + g.slotSize cls - 8) vm
  inv : ∃ P E F, SCInv g base cls c' P E F loc' ql'
  scvm : SCVm g base cls loc' vm'
  used : ∀ a b, c'.used a b = (c.used a b && !decide (out = some (a, b)))
  live : ∀ a b, c'.live a b = (c.live a b && !(decide (a = i) && decide (b = k)))
  canary : ∀ a, (c'.slabs a).canary = (c.slabs a).canary
  step : ∃ pushed, QStep g cls c c' ql ql' i k pushed
  leaves : ∀ a b, ql' a b = .none ↔ (ql a b = .none ∧ ¬ (a = i ∧ b = k)) ∨ out = some (a, b)
  was : ∀ a b, out = some (a, b) → c.used a b = true ∧ (ql a b ≠ .none ∨ (a = i ∧ b = k))
  nmalloc : c'.nmalloc = c.nmalloc
  ndalloc : c'.ndalloc = if g.stats = true then add64 c.ndalloc 1 else c.ndalloc
  allocated : c'.allocated = if g.stats = true then sub64 c.allocated (g.slotSize cls) else c.allocated
  isRw : ∀ a, (loc' a).isRw = ((loc a).isRw && !(r && decide (out.map Prod.fst = some a)))
  fresh : ∀ a, loc' a = .fresh ↔ loc a = .fresh
  rout : r = true → ∃ a b, out = some (a, b) ∧ (loc a).isRw = true ∧ ∀ b', c'.used a b' = false
  slabAllocated : c'.slabAllocated = if g.stats = true ∧ r = true then sub64 c.slabAllocated (g.slabSize cls) else c.slabAllocated
  emptyTotal : c'.emptyTotal ≤ c.emptyTotal ∨ c'.emptyTotal ≤ g.maxEmptySlabsTotal ∨ ch.sys 0 = .enomem
  zeroed : g.classSize cls ≠ 0 → g.zeroOnFree = true → ∀ x,
    inRange (slotAddr g base cls i k) (g.slotSize cls - g.canarySize) x → vm'.mem x = 0#8
  mem : ∀ x, vm'.mem x = vm.mem x ∨ (vm'.mem x = 0#8 ∧
    ((g.classSize cls ≠ 0 ∧ ((g.zeroOnFree = true ∧ inRange (slotAddr g base cls i k) (g.slotSize cls - g.canarySize) x) ∨
      (tagging g ch = true ∧ inRange (slotAddr g base cls i k) (g.slotSize cls) x))) ∨
     ∃ a b, out = some (a, b) ∧ (∀ b', c'.used a b' = false) ∧ inRange (slabAddr base (g.slabSize cls) a) (g.slabSize cls) x))
  prot : ∀ pg, vm'.prot pg = if r = true ∧ ∃ a, out.map Prod.fst = some a ∧
    inPages (slabAddr base (g.slabSize cls) a) (g.slabSize cls) pg then .none else vm.prot pg
  errno : e' = e ∨ (r = true ∧ e' = ch.label 0 e)

/-- What `deallocateSmall` may do. -/
def DeallocPost (g : Cfg) (base cls p : Nat) (expected : Option Nat) (ch : Choice) (c : SC) (vm : Vm) (e : Errno) (loc : Nat → Loc)
    (ql : Nat → Nat → QLoc) : Res (SC × Vm × Errno) → Prop
  | .ok (c', vm', e') => (∀ s, expected = some s → s = g.classSize cls) ∧ ∃ i k loc' ql' out r, p = slotAddr g base cls i k ∧
      DeallocOk g base cls ch c c' vm vm' e e' loc loc' ql ql' i k out r
  | .fatal _ => (∃ s, expected = some s ∧ s ≠ g.classSize cls) ∨ (∀ i k, p = slotAddr g base cls i k → c.live i k = false) ∨
      (g.classSize cls ≠ 0 ∧ g.slabCanary = true ∧ ∃ i k, p = slotAddr g base cls i k ∧ c.used i k = true ∧
        ¬ CanaryFine g (c.slabs i).canary (p + g.slotSize cls - 8) vm) ∨ ∃ k, ch.sys k = .other
  | _ => False

/-- The invariant does not mention the statistics. -/
theorem SCInv.stats {c : SC} {P E F : List Nat} {loc : Nat → Loc} {ql : Nat → Nat → QLoc} (h : SCInv g base cls c P E F loc ql)
    (a n : Nat) : SCInv g base cls { c with allocated := a, ndalloc := n } P E F loc ql where
  lists := h.lists.congr ⟨fun _ => rfl, fun _ => rfl, rfl, rfl, rfl, rfl, rfl⟩
  etot := h.etot
  bits := ⟨h.bits.ung, h.bits.unglt, h.bits.mpos, h.bits.mle, h.bits.mcount, h.bits.act, h.bits.fresh, h.bits.zero, h.bits.cnt, h.bits.hi⟩
  cntOk := h.cntOk
  qarr := ⟨h.qarr.bit, h.qarr.sub, h.qarr.r1, h.qarr.r2, h.qarr.q1, h.qarr.q2, h.qarr.idx⟩
  notransit := h.notransit

theorem SCInv.quarantined {c c' : SC} {P E F : List Nat} {loc : Nat → Loc} {ql ql' : Nat → Nat → QLoc} {i k : Nat}
    {out : Option (Nat × Nat)} (h : SCInv g base cls c P E F loc ql) (hq : Quarantined g base cls c c' ql ql' i k out) :
    SCInv g base cls c' P E F loc ql' where
  lists := by
    obtain ⟨r, q, x, e⟩ := hq.rest
    refine h.lists.congr ⟨fun a => ?_, fun a => ?_, by rw [e], by rw [e], by rw [e], by rw [e], by rw [e]⟩
    · obtain ⟨qb, e, _⟩ := hq.slabs a; rw [e]
    · obtain ⟨qb, e, _⟩ := hq.slabs a; rw [e]
  etot := by obtain ⟨r, q, x, e⟩ := hq.rest; rw [e]; exact h.etot
  bits := by
    obtain ⟨r, q, x, e⟩ := hq.rest
    exact h.bits.congrQ hq.slabs (by rw [e]) (by rw [e]) (by rw [e])
  cntOk := fun a => by obtain ⟨qb, e, _⟩ := hq.slabs a; rw [e]; exact h.cntOk a
  qarr := hq.qarr
  notransit := hq.notransit

theorem used_isRw {c : SC} {P E F : List Nat} {loc : Nat → Loc} {ql : Nat → Nat → QLoc} {i k : Nat}
    (h : SCInv g base cls c P E F loc ql) (hu : c.used i k = true) : (loc i).isRw = true := by
  have hk := h.bits.used_lt hu
  have hcpos : 0 < (c.slabs i).count := by
    rw [h.bits.cnt i]
    rcases Nat.eq_zero_or_pos (bitCount (c.slabs i).bitmap (g.slots cls)) with h0 | h0
    · have := (bitCount_zero_iff _ _).mp h0 k hk
      unfold SC.used at hu
      rw [this] at hu; exact absurd hu (by simp)
    · exact h0
  have hcok := h.cntOk i
  cases hl : loc i <;> rw [hl] at hcok <;> simp only [CountOk] at hcok <;> first | rfl | omega

theorem QStep.congr {c c1 c1' c' : SC} {ql ql' : Nat → Nat → QLoc} {i k : Nat} {pushed : Bool} (h : QStep g cls c1 c1' ql ql' i k pushed)
    (h1 : c1.qidx = c.qidx) (h2 : c'.qidx = c1'.qidx) : QStep g cls c c' ql ql' i k pushed := by
  obtain ⟨a, b, d⟩ := h
  rw [h1] at a b d
  exact ⟨by rw [h2]; exact a, b, d⟩

theorem deallocateSmall_spec {c : SC} {vm : Vm} {e : Errno} {P E F : List Nat} {loc : Nat → Loc} {ql : Nat → Nat → QLoc}
    {p : Nat} {expected : Option Nat} {ch : Choice} (hv : g.Valid) (hq0 : 1 ≤ g.freeSlabsQ) (hb : BaseOk g base) (hcls : cls < nClasses g)
    (hp : p < W64) (h : SCInv g base cls c P E F loc ql) (hvm : SCVm g base cls loc vm) :
    DeallocPost g base cls p expected ch c vm e loc ql (deallocateSmall g base cls p expected ch c vm e) := by
  unfold deallocateSmall
  by_cases hexp : (expected.any fun x => decide (x ≠ g.classSize cls)) = true
  · rw [if_pos hexp]
    left
    rw [Option.any_eq_true] at hexp
    obtain ⟨s, hs, hne⟩ := hexp
    exact ⟨s, hs, by simpa using hne⟩
  rw [if_neg hexp]
  have hexp' : ∀ s, expected = some s → s = g.classSize cls := fun s hs => by
    by_contra hc
    exact hexp (by rw [Option.any_eq_true]; exact ⟨s, hs, by simpa using hc⟩)
  rw [SC.statsDealloc_eq]
  generalize hal : (if g.stats = true then sub64 c.allocated (g.slotSize cls) else c.allocated) = al
  generalize hnd : (if g.stats = true then add64 c.ndalloc 1 else c.ndalloc) = nd
  have h0 := h.stats al nd
  generalize hc0 : ({ c with allocated := al, ndalloc := nd } : SC) = c0 at h0 ⊢
  dsimp only
  have hs0 : c0.slabs = c.slabs := by rw [← hc0]
  have hu0 : ∀ a b, c0.used a b = c.used a b := fun a b => by unfold SC.used; rw [hs0]
  have hq0' : ∀ a b, c0.quar a b = c.quar a b := fun a b => by unfold SC.quar; rw [hs0]
  have hfs := findSlot_spec (msg1 := "invalid unaligned free") (msg2 := "double free") hv hb hcls h0.bits hp
  cases hf : findSlot g base cls p c0 "invalid unaligned free" "double free" with
  | segv => rw [hf] at hfs; exact hfs.elim
  | ub _ => rw [hf] at hfs; exact hfs.elim
  | hang => rw [hf] at hfs; exact hfs.elim
  | fatal _ =>
    rw [hf] at hfs
    simp only [Res.bind_fatal, DeallocPost]
    right; left
    intro i k hpe
    unfold SC.live
    have : c.used i k = false := by
      by_contra hc
      exact hfs i k (by rw [hu0]; simpa using hc) hpe
    rw [this]; rfl
  | ok mk =>
    obtain ⟨i, k⟩ := mk
    rw [hf] at hfs
    obtain ⟨hpe, hu⟩ := hfs
    simp only [Res.bind_ok]
    have hk := h0.bits.used_lt hu
    have hrwi := used_isRw h0 hu
    have hsc := scrubSlot_spec (tag := tagging g ch) (canary := (c0.slabs i).canary) hcls hvm hrwi hk
    rw [← hpe] at hsc
    cases hscr : scrubSlot g (tagging g ch) cls (c0.slabs i).canary p vm with
    | segv => rw [hscr] at hsc; exact hsc.elim
    | ub _ => rw [hscr] at hsc; exact hsc.elim
    | hang => rw [hscr] at hsc; exact hsc.elim
    | fatal _ =>
      rw [hscr] at hsc
      obtain ⟨_, hz, hcn, hne⟩ := hsc
      simp only [Res.bind_fatal, DeallocPost]
      right; right; left
      rw [hs0] at hne
      rw [hu0] at hu
      exact ⟨hz, hcn, i, k, hpe, hu, hne⟩
    | ok vm1 =>
      rw [hscr] at hsc
      obtain ⟨hcan, hprot1, hmem1, hzero1⟩ := hsc
      simp only [Res.bind_ok]
      have hqs := quarantineSlot_spec (ch := ch) hv hb hcls h0.bits h0.qarr h0.notransit hu
      rw [← hpe] at hqs
      cases hqq : quarantineSlot g base cls ch c0 p i k with
      | segv => rw [hqq] at hqs; exact hqs.elim
      | ub _ => rw [hqq] at hqs; exact hqs.elim
      | hang => rw [hqq] at hqs; exact hqs.elim
      | fatal _ =>
        rw [hqq] at hqs
        simp only [Res.bind_fatal, DeallocPost]
        right; left
        intro a b hpe'
        unfold SC.live
        by_cases hua : c.used a b = true
        · obtain ⟨rfl, rfl⟩ := slotAddr_inj hcls hk (h.bits.used_lt hua) (hpe.symm.trans hpe')
          rw [← hq0', hqs]; simp
        · simp [hua]
      | ok co =>
        obtain ⟨c1, out⟩ := co
        rw [hqq] at hqs
        obtain ⟨hnq, ql', hQ⟩ := hqs
        simp only [Res.bind_ok]
        have h1 := h0.quarantined hQ
        obtain ⟨pushed, hstep⟩ := hQ.step
        obtain ⟨qr1, qq1, qx1, hc1⟩ := hQ.rest
        have hu1 : ∀ a b, c1.used a b = c.used a b := fun a b => by
          obtain ⟨qb, e', _⟩ := hQ.slabs a
          unfold SC.used; rw [e']; show (c0.slabs a).bitmap.bit b = _; rw [hs0]
        have hcan1 : ∀ a, (c1.slabs a).canary = (c.slabs a).canary := fun a => by
          obtain ⟨qb, e', _⟩ := hQ.slabs a; rw [e', hs0]
        have hqidx0 : c0.qidx = c.qidx := by rw [← hc0]
        have hfield : c1.nmalloc = c.nmalloc ∧ c1.ndalloc = nd ∧ c1.allocated = al ∧ c1.slabAllocated = c.slabAllocated ∧
            c1.emptyTotal = c.emptyTotal := by
          rw [hc1, ← hc0]; exact ⟨rfl, rfl, rfl, rfl, rfl⟩
        obtain ⟨f1, f2, f3, f4, f5⟩ := hfield
        have hvm1 : SCVm g base cls loc vm1 := hvm.congr (fun _ => rfl) hprot1 (fun x hx => by
          rcases hmem1 x with hh | ⟨_, hz, hin⟩
          · exact hh
          · have hin : inRange p (g.slotSize cls) x := by
              rcases hin with ⟨_, hin⟩ | ⟨_, hin⟩
              · unfold inRange at *; omega
              · exact hin
            rw [hpe] at hin
            exact absurd (hvm.rw i x hrwi hz (slot_range_slab hcls hk hin)) hx)
        have hint : tagging g ch = false → g.classSize cls ≠ 0 → g.slabCanary = true →
            CanaryFine g (c.slabs i).canary (slotAddr g base cls i k + g.slotSize cls - 8) vm := fun a b d => by
          rw [← hs0, ← hpe]; exact hcan a b d
        have hqb : ∀ a b, c.quar a b = true ↔ ql a b ≠ .none := fun a b => h.qarr.bit a b
        have hqb1 : ∀ a b, c1.quar a b = true ↔ ql' a b ≠ .none := fun a b => hQ.qarr.bit a b
        have hqik : ql i k = .none := by
          by_contra hc
          have := (h.qarr.bit i k).mpr hc
          rw [hq0'] at hnq; rw [hnq] at this; exact absurd this (by simp)
        -- which slots are live afterwards, given that `out` is released
        have hlive : ∀ c2 : SC, (∀ a b, c2.used a b = (c1.used a b && !decide (out = some (a, b)))) → (∀ a b, c2.quar a b = c1.quar a b) →
            ∀ a b, c2.live a b = (c.live a b && !(decide (a = i) && decide (b = k))) := fun c2 hh1 hh2 a b => by
          unfold SC.live
          rw [hh1, hh2, hu1]
          by_cases ho : out = some (a, b)
          · obtain ⟨_, ho'⟩ := hQ.was a b ho
            rcases ho' with ho' | ⟨rfl, rfl⟩
            · have := (hqb a b).mpr ho'
              simp [ho, this]
            · simp [ho]
          · have hl := hQ.leaves a b
            have e1 : c1.quar a b = (c.quar a b || (decide (a = i) && decide (b = k))) := by
              by_cases hik : a = i ∧ b = k
              · have : c1.quar a b = true := by rw [hqb1, ne_eq, hl]; simp [hik]; rw [hik.1, hik.2] at ho; exact ho
                rw [this]; simp [hik]
              · have hd : (decide (a = i) && decide (b = k)) = false := by simpa using hik
                rw [hd, Bool.or_false]
                rw [Bool.eq_iff_iff, hqb, hqb1, ne_eq, ne_eq, hl]
                simp [hik, ho]
            rw [e1]
            simp only [ho, decide_false, Bool.not_false, Bool.and_true]
            cases c.used a b <;> cases c.quar a b <;> cases (decide (a = i) && decide (b = k)) <;> rfl
        rcases out with _ | ⟨m, s⟩
        · simp only [DeallocPost]
          refine ⟨hexp', i, k, loc, ql', none, false, hpe, ?_⟩
          refine ⟨by rw [← hu0]; exact hu, by rw [← hq0']; exact hnq, hint, ⟨P, E, F, h1⟩, hvm1, fun a b => by rw [hu1]; simp,
            hlive c1 (fun a b => by simp) (fun _ _ => rfl), hcan1, ⟨pushed, hstep.congr hqidx0 rfl⟩, hQ.leaves, ?_, f1, by rw [f2, ← hnd],
            by rw [f3, ← hal], fun a => by simp, fun a => Iff.rfl, by simp, by simp [f4], Or.inl (by rw [f5]), ?_, ?_, ?_, Or.inl rfl⟩
          · intro a b hh; exact absurd hh (by simp)
          · intro hz hzf x hx
            rw [← hpe] at hx
            exact hzero1 hz hzf x hx
          · intro x
            rw [← hpe]
            exact (hmem1 x).imp id fun hh => ⟨hh.1, Or.inl hh.2⟩
          · intro pg; rw [hprot1]; simp
        · simp only
          obtain ⟨hum, hwas⟩ := hQ.was m s rfl
          have hqn : ql' m s = .none := (hQ.leaves m s).mpr (Or.inr rfl)
          have hrs := releaseSlot_spec (ch := ch) (e := e) hv hq0 hb hcls h1 hvm1 (m := m) (k := s) (by rw [hu1, ← hu0]; exact hum) hqn
          cases hrel : releaseSlot g base cls ch c1 vm1 e m s with
          | segv => rw [hrel] at hrs; exact hrs.elim
          | ub _ => rw [hrel] at hrs; exact hrs.elim
          | hang => rw [hrel] at hrs; exact hrs.elim
          | fatal _ =>
            rw [hrel] at hrs
            right; right; right; exact hrs
          | ok res =>
            obtain ⟨c2, vm2, e2⟩ := res
            rw [hrel] at hrs
            obtain ⟨loc', r, R⟩ := hrs
            have hus : ∀ a b, c2.used a b = (c1.used a b && !decide (some (m, s) = some (a, b))) := fun a b => by
              rw [R.used]
              congr 2
              rw [← Bool.decide_and]
              congr 1
              simp [eq_comm]
            refine ⟨hexp', i, k, loc', ql', some (m, s), r, hpe, ?_⟩
            have hl := hlive c2 hus R.quar
            refine ⟨by rw [← hu0]; exact hu, by rw [← hq0']; exact hnq, hint, R.inv, R.scvm, fun a b => by rw [hus, hu1],
              hl, fun a => by rw [R.canary, hcan1], ⟨pushed, hstep.congr hqidx0 R.qidx⟩, hQ.leaves, ?_,
              by rw [R.nmalloc, f1], by rw [R.ndalloc, f2, ← hnd],
              by rw [R.allocated, f3, ← hal], fun a => by rw [R.isRw]; simp [eq_comm], R.fresh, ?_, by rw [R.slabAllocated, f4],
              by rw [← f5]; exact R.emptyTotal, ?_, ?_, ?_, R.errno⟩
            · intro a b hh
              rw [← hu0]
              exact hQ.was a b hh
            · intro hr
              exact ⟨m, s, rfl, used_isRw h0 hum, R.empty hr⟩
            · intro hz hzf x hx
              rw [← hpe] at hx
              rcases R.mem x with hm | hm
              · rw [hm]; exact hzero1 hz hzf x hx
              · exact hm.1
            · intro x
              rcases R.mem x with hm | ⟨hm1, hm2, hm3⟩
              · rw [hm, ← hpe]
                exact (hmem1 x).imp id fun hh => ⟨hh.1, Or.inl hh.2⟩
              · exact Or.inr ⟨hm1, Or.inr ⟨m, s, rfl, hm2, hm3⟩⟩
            · intro pg
              rw [R.prot, hprot1]
              simp

/-- What the check behind `malloc_usable_size` may do on an address of the slab region. -/
def CheckPost (g : Cfg) (tag : Bool) (base cls p : Nat) (c : SC) (vm : Vm) : Res Unit → Prop
  | .ok _ => ∃ i k, p = slotAddr g base cls i k ∧ c.live i k = true ∧ (tag = false → g.classSize cls ≠ 0 → g.slabCanary = true →
      CanaryFine g (c.slabs i).canary (p + g.slotSize cls - 8) vm)
  | .fatal _ => (∀ i k, p = slotAddr g base cls i k → c.live i k = false) ∨
      (g.classSize cls ≠ 0 ∧ g.slabCanary = true ∧ ∃ i k, p = slotAddr g base cls i k ∧ c.used i k = true ∧
        ¬ CanaryFine g (c.slabs i).canary (p + g.slotSize cls - 8) vm)
  | _ => False

theorem checkSlotCanary_spec {vm : Vm} {loc : Nat → Loc} {tag : Bool} {i k : Nat} {canary : BitVec 64}
    (hcls : cls < nClasses g) (hvm : SCVm g base cls loc vm) (hl : (loc i).isRw = true) (hk : k < g.slots cls) :
    (checkSlotCanary g tag cls canary (slotAddr g base cls i k) vm = .ok () ∧ (tag = false → g.classSize cls ≠ 0 → g.slabCanary = true →
      CanaryFine g canary (slotAddr g base cls i k + g.slotSize cls - 8) vm)) ∨
    ((∃ msg, checkSlotCanary g tag cls canary (slotAddr g base cls i k) vm = .fatal msg) ∧ g.classSize cls ≠ 0 ∧ g.slabCanary = true ∧
      ¬ CanaryFine g canary (slotAddr g base cls i k + g.slotSize cls - 8) vm) := by
  have G := classGeo g hcls
  unfold checkSlotCanary
  by_cases hz : g.classSize cls ≠ 0
  · rw [if_pos hz]
    have hacc : vm.accessible (slotAddr g base cls i k + g.slotSize cls - 8) 8 = true := by
      apply Vm.accessible_of_pages
      intro x hx
      exact slot_rw hcls hvm hl hz hk (canary_in_slot hcls hx)
    rcases checkCanary_spec (g := g) (tag := tag) (canary := canary) (fun _ => hacc) with ⟨e, hc⟩ | ⟨e, hc⟩
    · exact Or.inl ⟨e, fun hm _ => hc hm⟩
    · exact Or.inr ⟨⟨_, e⟩, hz, hc⟩
  · rw [if_neg hz]
    exact Or.inl ⟨rfl, fun _ h => absurd h hz⟩

theorem memoryCorruptionCheckSmall_spec {c : SC} {vm : Vm} {P E F : List Nat} {loc : Nat → Loc} {ql : Nat → Nat → QLoc}
    {p : Nat} {tag : Bool} (hv : g.Valid) (hb : BaseOk g base) (hcls : cls < nClasses g)
    (hp : p < W64) (h : SCInv g base cls c P E F loc ql) (hvm : SCVm g base cls loc vm) :
    CheckPost g tag base cls p c vm (memoryCorruptionCheckSmall g tag base cls p c vm) := by
  unfold memoryCorruptionCheckSmall
  have hfs := findSlot_spec (msg1 := "invalid unaligned malloc_usable_size") (msg2 := "invalid malloc_usable_size") hv hb hcls h.bits hp
  cases hf : findSlot g base cls p c "invalid unaligned malloc_usable_size" "invalid malloc_usable_size" with
  | segv => rw [hf] at hfs; exact hfs.elim
  | ub _ => rw [hf] at hfs; exact hfs.elim
  | hang => rw [hf] at hfs; exact hfs.elim
  | fatal _ =>
    rw [hf] at hfs
    simp only [Res.bind_fatal]
    left
    intro i k hpe
    unfold SC.live
    have : c.used i k = false := by
      by_contra hc
      exact hfs i k (by simpa using hc) hpe
    rw [this]; rfl
  | ok mk =>
    obtain ⟨i, k⟩ := mk
    rw [hf] at hfs
    obtain ⟨hpe, hu⟩ := hfs
    simp only [Res.bind_ok]
    have hk := h.bits.used_lt hu
    have hrwi := used_isRw h hu
    have hquar : (g.slabQuarantine && (c.slabs i).qbitmap.get k) = c.quar i k := by
      rw [Bitmap.get_eq]
      show (g.slabQuarantine && c.quar i k) = c.quar i k
      cases hqk : c.quar i k with
      | false => simp
      | true =>
        have hne := (h.qarr.bit i k).mp hqk
        have hnt := h.notransit i k
        rw [Bool.and_true]
        unfold Cfg.slabQuarantine
        cases hql : ql i k with
        | none => exact absurd hql hne
        | transit => exact absurd hql hnt
        | rand j =>
          have := (h.qarr.r1 i k j hql).2
          by_cases hz : g.slabQRandom = 0
          · rw [hz] at this; simp [shl64] at this
          · simp [Nat.pos_of_ne_zero hz]
        | queue j =>
          have := (h.qarr.q1 i k j hql).2
          by_cases hz : g.slabQQueue = 0
          · rw [hz] at this; simp [shl64] at this
          · simp [Nat.pos_of_ne_zero hz]
    rw [hquar, hpe]
    rcases checkSlotCanary_spec (tag := tag) (canary := (c.slabs i).canary) hcls hvm hrwi hk with ⟨hok, hint⟩ | ⟨⟨msg, hft⟩, hbad⟩
    · rw [hok]
      simp only [Res.bind_ok]
      by_cases hqk : c.quar i k = true
      · rw [if_pos hqk]
        left
        intro a b hpe'
        unfold SC.live
        by_cases hua : c.used a b = true
        · obtain ⟨rfl, rfl⟩ := slotAddr_inj hcls hk (h.bits.used_lt hua) hpe'
          rw [hqk]; simp
        · simp [hua]
      · rw [if_neg hqk]
        exact ⟨i, k, rfl, by unfold SC.live; simp [hu, hqk], hint⟩
    · rw [hft]
      simp only [Res.bind_fatal]
      right
      exact ⟨hbad.1, hbad.2.1, i, k, rfl, hu, hbad.2.2⟩

end
end HM
