import Verif.SmallAllocSpec
/-
Specification of `deallocateSmall`: every outcome, for every state satisfying the invariant and every pointer.
-/
namespace HM

section
variable {g : Cfg} {base cls : Nat}

/-! ### Scrubbing -/

theorem wordZero_iff {vm : Vm} {a : Nat} : vm.wordZero a = true ↔ ∀ j, j < 8 → vm.mem (a + j) = 0#8 := by
  simp [Vm.wordZero]

theorem checkCanary_spec {tag : Bool} {canary : BitVec 64} {p size : Nat} {vm : Vm}
    (hacc : g.slabCanary = true → vm.accessible (p + size - 8) 8 = true) :
    (checkCanary g tag canary p size vm = .ok () ∧ (tag = false → g.slabCanary = true → CanaryFine g canary (p + size - 8) vm)) ∨
    (checkCanary g tag canary p size vm = .fatal "canary corrupted" ∧ g.slabCanary = true ∧ ¬ CanaryFine g canary (p + size - 8) vm) := by
  unfold checkCanary
  by_cases hc : g.slabCanary = true
  · cases tag with
    | true => exact Or.inl ⟨by simp, fun h => (by cases h)⟩
    | false =>
      simp only [hc, Bool.not_true, Bool.or_false, Bool.false_eq_true, if_false, hacc hc]
      by_cases hm : (g.mte && vm.wordZero (p + size - 8)) = true
      · rw [if_pos hm]
        rw [Bool.and_eq_true, wordZero_iff] at hm
        exact Or.inl ⟨rfl, fun _ _ => Or.inr hm⟩
      · rw [if_neg hm]
        rw [Bool.and_eq_true, wordZero_iff] at hm
        by_cases hall : ∀ j : Nat, j < 8 → vm.mem (p + size - 8 + j) = byteOf canary j
        · rw [if_pos (by simpa using hall)]
          exact Or.inl ⟨rfl, fun _ _ => Or.inl hall⟩
        · rw [if_neg (by simpa using hall)]
          exact Or.inr ⟨rfl, trivial, not_or.mpr ⟨hall, hm⟩⟩
  · have hcf : g.slabCanary = false := by simpa using hc
    exact Or.inl ⟨by simp [hcf], fun _ h => absurd h hc⟩

theorem scrubSlot_spec {vm : Vm} {loc : Nat → Loc} {tag : Bool} {i k : Nat} {canary : BitVec 64} 
    (hcls : cls < nClasses g) (hvm : SCVm g base cls loc vm) (hl : (loc i).isRw = true) (hk : k < g.slots cls) :
    match scrubSlot g tag cls canary (slotAddr g base cls i k) vm with
    | .ok vm' => (tag = false → g.classSize cls ≠ 0 → g.slabCanary = true →
          CanaryFine g canary (slotAddr g base cls i k + g.slotSize cls - 8) vm) ∧
        vm'.prot = vm.prot ∧
        (∀ x, vm'.mem x = vm.mem x ∨ (vm'.mem x = 0#8 ∧ g.classSize cls ≠ 0 ∧
          ((g.zeroOnFree = true ∧ inRange (slotAddr g base cls i k) (g.slotSize cls - g.canarySize) x) ∨
           (tag = true ∧ inRange (slotAddr g base cls i k) (g.slotSize cls) x)))) ∧
        (g.classSize cls ≠ 0 → g.zeroOnFree = true → ∀ x, inRange (slotAddr g base cls i k) (g.slotSize cls - g.canarySize) x → vm'.mem x = 0#8)
    | .fatal msg => msg = "canary corrupted" ∧ g.classSize cls ≠ 0 ∧ g.slabCanary = true ∧
        ¬ CanaryFine g canary (slotAddr g base cls i k + g.slotSize cls - 8) vm
    | _ => False := by
  unfold scrubSlot
  by_cases h0 : g.classSize cls = 0
  · rw [if_pos h0]
    exact ⟨fun _ h => absurd h0 h, rfl, fun x => Or.inl rfl, fun h => absurd h0 h⟩
  rw [if_neg h0]
  have hrw : ∀ x, inRange (slotAddr g base cls i k) (g.slotSize cls) x → vm.prot (x / PAGE) = .rw :=
    fun x hx => slot_rw hcls hvm hl h0 hk hx
  have G := classGeo g hcls
  have hge := G.size_ge
  have hcan := Vm.accessible_of_pages (vm := vm) (a := slotAddr g base cls i k + g.slotSize cls - 8) (n := 8)
    (fun x hx => hrw x (canary_in_slot hcls hx))
  have hmain := Vm.accessible_of_pages (vm := vm) (a := slotAddr g base cls i k) (n := g.slotSize cls - g.canarySize)
    (fun x hx => hrw x (by unfold inRange at *; omega))
  rcases checkCanary_spec (g := g) (tag := tag) (canary := canary) (fun _ => hcan) with ⟨e, hc⟩ | ⟨e, hc⟩
  · rw [e, Res.bind_ok]
    have hc' : tag = false → g.classSize cls ≠ 0 → g.slabCanary = true →
        CanaryFine g canary (slotAddr g base cls i k + g.slotSize cls - 8) vm := fun hm _ => hc hm
    cases tag with
    | true =>
      rw [if_pos rfl, clearMem_spec hrw]
      refine ⟨hc', rfl, fun x => ?_, fun _ _ x hx => ?_⟩
      · by_cases hx : inRange (slotAddr g base cls i k) (g.slotSize cls) x
        · exact Or.inr ⟨by simp [Vm.fill, hx], h0, Or.inr ⟨rfl, hx⟩⟩
        · exact Or.inl (by simp [Vm.fill, hx])
      · have : inRange (slotAddr g base cls i k) (g.slotSize cls) x := by unfold inRange at *; omega
        simp [Vm.fill, this]
    | false =>
      rw [if_neg (by simp)]
      by_cases hz : g.zeroOnFree = true
      · rw [if_pos hz, if_pos hmain]
        refine ⟨hc', rfl, fun x => ?_, fun _ _ x hx => by simp [Vm.fill, hx]⟩
        by_cases hx : inRange (slotAddr g base cls i k) (g.slotSize cls - g.canarySize) x
        · exact Or.inr ⟨by simp [Vm.fill, hx], h0, Or.inl ⟨hz, hx⟩⟩
        · exact Or.inl (by simp [Vm.fill, hx])
      · rw [if_neg hz]
        exact ⟨hc', rfl, fun x => Or.inl rfl, fun _ h => absurd h hz⟩
  · rw [e, Res.bind_fatal]
    exact ⟨rfl, h0, hc⟩

/-! ### Quarantine -/

/-- Length of the random quarantine array in use for class `cls`. -/
def lenR (g : Cfg) (cls : Nat) : Nat := shl64 g.slabQRandom (quarantineShift g (g.slotSize cls))
/-- Length of the quarantine queue in use for class `cls`. -/
def lenQ (g : Cfg) (cls : Nat) : Nat := shl64 g.slabQQueue (quarantineShift g (g.slotSize cls))

theorem shl_len (hcls : cls < nClasses g) {n : Nat} (hn : n ≤ 65536) :
    shl64 n (quarantineShift g (g.slotSize cls)) = n * 2 ^ quarantineShift g (g.slotSize cls) ∧
    n * 2 ^ quarantineShift g (g.slotSize cls) ≤ quarantineCap g n := by
  have h1 := (classGeo g hcls).shift_le
  have h2 : g.maxSlabShift - 4 ≤ 13 := by unfold Cfg.maxSlabShift; split <;> omega
  have h3 : 2 ^ quarantineShift g (g.slotSize cls) ≤ 2 ^ 13 := Nat.pow_le_pow_right (by omega) (by omega)
  have h4 : 2 ^ quarantineShift g (g.slotSize cls) ≤ 2 ^ (g.maxSlabShift - 4) := Nat.pow_le_pow_right (by omega) h1
  unfold shl64 quarantineCap
  refine ⟨Nat.mod_eq_of_lt ?_, Nat.mul_le_mul_left _ h4⟩
  have : n * 2 ^ quarantineShift g (g.slotSize cls) ≤ 65536 * 2 ^ 13 := Nat.mul_le_mul hn h3
  omega

theorem len_pos (hcls : cls < nClasses g) {n : Nat} (hn : n ≤ 65536) (h0 : n ≠ 0) :
    0 < shl64 n (quarantineShift g (g.slotSize cls)) := by
  rw [(shl_len hcls hn).1]
  exact Nat.mul_pos (by omega) (Nat.pow_pos (by omega))

/-- Change the position of one slot. -/
def QLoc.set (ql : Nat → Nat → QLoc) (i k : Nat) (v : QLoc) : Nat → Nat → QLoc := fun a b => if a = i ∧ b = k then v else ql a b

theorem QLoc.set_same {ql : Nat → Nat → QLoc} {i k : Nat} {v : QLoc} : QLoc.set ql i k v i k = v := by simp [QLoc.set]
theorem QLoc.set_ne {ql : Nat → Nat → QLoc} {i k a b : Nat} {v : QLoc} (h : ¬ (a = i ∧ b = k)) :
    QLoc.set ql i k v a b = ql a b := by simp [QLoc.set, h]

/-- How the positions of quarantined slots change when slot `(i, k)` is freed. `pushed`: something entered the queue. -/
structure QStep (g : Cfg) (cls : Nat) (c c' : SC) (ql ql' : Nat → Nat → QLoc) (i k : Nat) (pushed : Bool) : Prop where
  idx : c'.qidx = if pushed then (c.qidx + 1) % lenQ g cls else c.qidx
  self : if g.slabQRandom ≠ 0 then ∃ j, ql' i k = .rand j
    else if g.slabQQueue ≠ 0 then pushed = true ∧ ql' i k = .queue c.qidx else ql' i k = .none
  other : ∀ a b, ¬ (a = i ∧ b = k) →
    (ql' a b = ql a b ∧ (pushed = true → ql a b ≠ .queue c.qidx)) ∨
    ((∃ j, ql a b = .rand j) ∧ (if g.slabQQueue ≠ 0 then pushed = true ∧ ql' a b = .queue c.qidx else ql' a b = .none)) ∨
    (pushed = true ∧ ql a b = .queue c.qidx ∧ ql' a b = .none)

/-- A single slot is between the arrays, and `p` is its address. -/
structure InTransit (g : Cfg) (base cls : Nat) (ql : Nat → Nat → QLoc) (i k p : Nat) : Prop where
  at_ : ql i k = .transit
  uniq : ∀ a b, ql a b = .transit → a = i ∧ b = k
  addr : p = slotAddr g base cls i k

theorem QArr.lt {c : SC} {loc : Nat → Loc} {ql : Nat → Nat → QLoc} (h : QArr g base cls c ql) (hb : Bits g cls c loc)
    {i k : Nat} (hq : ql i k ≠ .none) : k < g.slots cls := hb.used_lt (h.sub i k hq)

theorem pushRandom_spec {c : SC} {loc : Nat → Loc} {ql : Nat → Nat → QLoc} {ch : Choice} {i k p : Nat} (hv : g.Valid)
    (hb : BaseOk g base) (hcls : cls < nClasses g) (hbits : Bits g cls c loc) (h : QArr g base cls c ql)
    (ht : InTransit g base cls ql i k p) (h0 : g.slabQRandom ≠ 0) :
    ∃ q j fr, pushRandom g (g.slotSize cls) ch c p = .ok ({ c with qrand := fr }, q) ∧
      ((q = 0 ∧ QArr g base cls { c with qrand := fr } (QLoc.set ql i k (.rand j))) ∨
       (q ≠ 0 ∧ ∃ a b, ql a b = .rand j ∧ InTransit g base cls (QLoc.set (QLoc.set ql i k (.rand j)) a b .transit) a b q ∧
        QArr g base cls { c with qrand := fr } (QLoc.set (QLoc.set ql i k (.rand j)) a b .transit))) := by
  have hpos := len_pos (g := g) hcls hv.slabQRandom h0
  have hcap := shl_len (g := g) hcls hv.slabQRandom
  unfold pushRandom
  rw [if_neg h0]
  simp only
  have hj := u16Uniform_lt (ch.u16 1) hpos
  generalize hjj : u16Uniform (ch.u16 1) (shl64 g.slabQRandom (quarantineShift g (g.slotSize cls))) = j at hj
  rw [if_neg (by omega)]
  have hp0 : p ≠ 0 := by rw [ht.addr]; exact slotAddr_pos hb i k
  have hne : ∀ a b j, ql a b = .rand j → ¬ (a = i ∧ b = k) := by
    rintro a b j h1 ⟨rfl, rfl⟩; rw [ht.at_] at h1; exact absurd h1 (by simp)
  have hneq : ∀ a b j, ql a b = .queue j → ¬ (a = i ∧ b = k) := by
    rintro a b j h1 ⟨rfl, rfl⟩; rw [ht.at_] at h1; exact absurd h1 (by simp)
  refine ⟨_, j, _, rfl, ?_⟩
  by_cases hq : c.qrand j = 0
  · left
    have hno : ∀ a b, ql a b ≠ .rand j := fun a b hab => by
      have := (h.r1 a b j hab).1
      rw [hq] at this
      exact slotAddr_pos hb a b this.symm
    refine ⟨hq, ?_, ?_, ?_, ?_, ?_, ?_, h.idx⟩
    · intro a b
      show c.quar a b = true ↔ _
      by_cases e : a = i ∧ b = k
      · obtain ⟨rfl, rfl⟩ := e
        rw [QLoc.set_same, h.bit, ht.at_]; simp
      · rw [QLoc.set_ne e]; exact h.bit a b
    · intro a b hab
      show c.used a b = true
      by_cases e : a = i ∧ b = k
      · obtain ⟨rfl, rfl⟩ := e
        exact h.sub a b (by rw [ht.at_]; simp)
      · rw [QLoc.set_ne e] at hab; exact h.sub a b hab
    · intro a b j' hab
      by_cases e : a = i ∧ b = k
      · obtain ⟨rfl, rfl⟩ := e
        rw [QLoc.set_same] at hab
        have : j = j' := by simpa using hab
        subst this
        exact ⟨by simp [setAt, ht.addr], hj⟩
      · rw [QLoc.set_ne e] at hab
        have hjn : j' ≠ j := fun e' => hno a b (e' ▸ hab)
        simp only [setAt, hjn, if_false]
        exact h.r1 a b j' hab
    · intro j' hj'
      by_cases e : j' = j
      · subst e; exact ⟨i, k, QLoc.set_same⟩
      · simp only [setAt, e, if_false] at hj'
        obtain ⟨a, b, hab⟩ := h.r2 j' hj'
        exact ⟨a, b, by rw [QLoc.set_ne (hne a b j' hab)]; exact hab⟩
    · intro a b j' hab
      by_cases e : a = i ∧ b = k
      · obtain ⟨rfl, rfl⟩ := e
        rw [QLoc.set_same] at hab; exact absurd hab (by simp)
      · rw [QLoc.set_ne e] at hab; exact h.q1 a b j' hab
    · intro j' hj'
      obtain ⟨a, b, hab⟩ := h.q2 j' hj'
      exact ⟨a, b, by rw [QLoc.set_ne (hneq a b j' hab)]; exact hab⟩
  · right
    obtain ⟨a0, b0, h0'⟩ := h.r2 j hq
    have haddr := (h.r1 a0 b0 j h0').1
    have hne0 := hne a0 b0 j h0'
    have hb0 : b0 < g.slots cls := h.lt hbits (by rw [h0']; simp)
    have huniq : ∀ a b, ql a b = .rand j → a = a0 ∧ b = b0 := fun a b hab => by
      have h1 := (h.r1 a b j hab).1
      rw [haddr] at h1
      have := slotAddr_inj hcls hb0 (h.lt hbits (by rw [hab]; simp)) h1
      exact ⟨this.1.symm, this.2.symm⟩
    -- the new position of every slot
    have hik : QLoc.set (QLoc.set ql i k (.rand j)) a0 b0 .transit i k = .rand j := by
      rw [QLoc.set_ne (fun e => hne0 ⟨e.1.symm, e.2.symm⟩), QLoc.set_same]
    have hoth : ∀ a b, ¬ (a = i ∧ b = k) → ¬ (a = a0 ∧ b = b0) →
        QLoc.set (QLoc.set ql i k (.rand j)) a0 b0 .transit a b = ql a b := fun a b e1 e2 => by
      rw [QLoc.set_ne e2, QLoc.set_ne e1]
    generalize hql : QLoc.set (QLoc.set ql i k (.rand j)) a0 b0 .transit = ql' at hik hoth
    have h00 : ql' a0 b0 = .transit := by rw [← hql]; exact QLoc.set_same
    refine ⟨hq, a0, b0, h0', ?_⟩
    rw [hql]
    refine ⟨⟨h00, ?_, haddr⟩, ?_, ?_, ?_, ?_, ?_, ?_, h.idx⟩
    · intro a b hab
      by_cases e2 : a = a0 ∧ b = b0
      · exact e2
      · by_cases e1 : a = i ∧ b = k
        · obtain ⟨rfl, rfl⟩ := e1; rw [hik] at hab; exact absurd hab (by simp)
        · rw [hoth a b e1 e2] at hab
          exact absurd (ht.uniq a b hab) e1
    · intro a b
      show c.quar a b = true ↔ _
      by_cases e2 : a = a0 ∧ b = b0
      · obtain ⟨rfl, rfl⟩ := e2; rw [h00, h.bit, h0']; simp
      · by_cases e1 : a = i ∧ b = k
        · obtain ⟨rfl, rfl⟩ := e1; rw [hik, h.bit, ht.at_]; simp
        · rw [hoth a b e1 e2]; exact h.bit a b
    · intro a b hab
      show c.used a b = true
      by_cases e2 : a = a0 ∧ b = b0
      · obtain ⟨rfl, rfl⟩ := e2; exact h.sub a b (by rw [h0']; simp)
      · by_cases e1 : a = i ∧ b = k
        · obtain ⟨rfl, rfl⟩ := e1; exact h.sub a b (by rw [ht.at_]; simp)
        · rw [hoth a b e1 e2] at hab; exact h.sub a b hab
    · intro a b j' hab
      by_cases e2 : a = a0 ∧ b = b0
      · obtain ⟨rfl, rfl⟩ := e2; rw [h00] at hab; exact absurd hab (by simp)
      · by_cases e1 : a = i ∧ b = k
        · obtain ⟨rfl, rfl⟩ := e1; rw [hik] at hab
          have : j = j' := by simpa using hab
          subst this
          exact ⟨by simp [setAt, ht.addr], hj⟩
        · rw [hoth a b e1 e2] at hab
          have hjn : j' ≠ j := fun e' => e2 (huniq a b (e' ▸ hab))
          simp only [setAt, hjn, if_false]
          exact h.r1 a b j' hab
    · intro j' hj'
      by_cases e : j' = j
      · subst e; exact ⟨i, k, hik⟩
      · simp only [setAt, e, if_false] at hj'
        obtain ⟨a, b, hab⟩ := h.r2 j' hj'
        refine ⟨a, b, ?_⟩
        rw [hoth a b (hne a b j' hab) ?_]; exact hab
        rintro ⟨rfl, rfl⟩
        rw [h0'] at hab
        exact e (by simpa using hab.symm)
    · intro a b j' hab
      by_cases e2 : a = a0 ∧ b = b0
      · obtain ⟨rfl, rfl⟩ := e2; rw [h00] at hab; exact absurd hab (by simp)
      · by_cases e1 : a = i ∧ b = k
        · obtain ⟨rfl, rfl⟩ := e1; rw [hik] at hab; exact absurd hab (by simp)
        · rw [hoth a b e1 e2] at hab; exact h.q1 a b j' hab
    · intro j' hj'
      obtain ⟨a, b, hab⟩ := h.q2 j' hj'
      refine ⟨a, b, ?_⟩
      rw [hoth a b (hneq a b j' hab) ?_]; exact hab
      rintro ⟨rfl, rfl⟩
      rw [h0'] at hab; exact absurd hab (by simp)

theorem pushQueue_spec {c : SC} {loc : Nat → Loc} {ql : Nat → Nat → QLoc} {i k p : Nat} (hv : g.Valid)
    (hb : BaseOk g base) (hcls : cls < nClasses g) (hbits : Bits g cls c loc) (h : QArr g base cls c ql)
    (ht : InTransit g base cls ql i k p) (h0 : g.slabQQueue ≠ 0) :
    ∃ q fr, pushQueue g (g.slotSize cls) c p = .ok ({ c with qqueue := fr, qidx := (c.qidx + 1) % lenQ g cls }, q) ∧
      ((q = 0 ∧ (∀ a b, ql a b ≠ .queue c.qidx) ∧
        QArr g base cls { c with qqueue := fr, qidx := (c.qidx + 1) % lenQ g cls } (QLoc.set ql i k (.queue c.qidx))) ∨
       (q ≠ 0 ∧ ∃ a b, ql a b = .queue c.qidx ∧ (∀ a' b', ql a' b' = .queue c.qidx → a' = a ∧ b' = b) ∧
        InTransit g base cls (QLoc.set (QLoc.set ql i k (.queue c.qidx)) a b .transit) a b q ∧
        QArr g base cls { c with qqueue := fr, qidx := (c.qidx + 1) % lenQ g cls }
          (QLoc.set (QLoc.set ql i k (.queue c.qidx)) a b .transit))) := by
  have hpos := len_pos (g := g) hcls hv.slabQQueue h0
  have hcap := shl_len (g := g) hcls hv.slabQQueue
  have hj := h.idx h0
  have hidx' : (c.qidx + 1) % lenQ g cls < shl64 g.slabQQueue (quarantineShift g (g.slotSize cls)) :=
    Nat.mod_lt _ hpos
  unfold pushQueue
  rw [if_neg h0]
  simp only
  rw [show shl64 g.slabQQueue (quarantineShift g (g.slotSize cls)) = lenQ g cls from rfl] at hidx' hj hpos hcap ⊢
  generalize hjj : c.qidx = j at hj
  rw [if_neg (by omega)]
  have hne : ∀ a b j, ql a b = .rand j → ¬ (a = i ∧ b = k) := by
    rintro a b j h1 ⟨rfl, rfl⟩; rw [ht.at_] at h1; exact absurd h1 (by simp)
  have hneq : ∀ a b j, ql a b = .queue j → ¬ (a = i ∧ b = k) := by
    rintro a b j h1 ⟨rfl, rfl⟩; rw [ht.at_] at h1; exact absurd h1 (by simp)
  rw [hjj] at hidx'
  refine ⟨_, _, rfl, ?_⟩
  by_cases hq : c.qqueue j = 0
  · left
    have hno : ∀ a b, ql a b ≠ .queue j := fun a b hab => by
      have := (h.q1 a b j hab).1
      rw [hq] at this
      exact slotAddr_pos hb a b this.symm
    refine ⟨hq, hno, ?_, ?_, ?_, ?_, ?_, ?_, fun _ => hidx'⟩
    · intro a b
      show c.quar a b = true ↔ _
      by_cases e : a = i ∧ b = k
      · obtain ⟨rfl, rfl⟩ := e
        rw [QLoc.set_same, h.bit, ht.at_]; simp
      · rw [QLoc.set_ne e]; exact h.bit a b
    · intro a b hab
      show c.used a b = true
      by_cases e : a = i ∧ b = k
      · obtain ⟨rfl, rfl⟩ := e
        exact h.sub a b (by rw [ht.at_]; simp)
      · rw [QLoc.set_ne e] at hab; exact h.sub a b hab
    · intro a b j' hab
      by_cases e : a = i ∧ b = k
      · obtain ⟨rfl, rfl⟩ := e
        rw [QLoc.set_same] at hab; exact absurd hab (by simp)
      · rw [QLoc.set_ne e] at hab; exact h.r1 a b j' hab
    · intro j' hj'
      obtain ⟨a, b, hab⟩ := h.r2 j' hj'
      exact ⟨a, b, by rw [QLoc.set_ne (hne a b j' hab)]; exact hab⟩
    · intro a b j' hab
      by_cases e : a = i ∧ b = k
      · obtain ⟨rfl, rfl⟩ := e
        rw [QLoc.set_same] at hab
        have : j = j' := by simpa using hab
        subst this
        exact ⟨by simp [setAt, ht.addr], hj⟩
      · rw [QLoc.set_ne e] at hab
        have hjn : j' ≠ j := fun e' => hno a b (e' ▸ hab)
        simp only [setAt, hjn, if_false]
        exact h.q1 a b j' hab
    · intro j' hj'
      by_cases e : j' = j
      · subst e; exact ⟨i, k, QLoc.set_same⟩
      · simp only [setAt, e, if_false] at hj'
        obtain ⟨a, b, hab⟩ := h.q2 j' hj'
        exact ⟨a, b, by rw [QLoc.set_ne (hneq a b j' hab)]; exact hab⟩
  · right
    obtain ⟨a0, b0, h0'⟩ := h.q2 j hq
    have haddr := (h.q1 a0 b0 j h0').1
    have hne0 := hneq a0 b0 j h0'
    have hb0 : b0 < g.slots cls := h.lt hbits (by rw [h0']; simp)
    have huniq : ∀ a b, ql a b = .queue j → a = a0 ∧ b = b0 := fun a b hab => by
      have h1 := (h.q1 a b j hab).1
      rw [haddr] at h1
      have := slotAddr_inj hcls hb0 (h.lt hbits (by rw [hab]; simp)) h1
      exact ⟨this.1.symm, this.2.symm⟩
    have hik : QLoc.set (QLoc.set ql i k (.queue j)) a0 b0 .transit i k = .queue j := by
      rw [QLoc.set_ne (fun e => hne0 ⟨e.1.symm, e.2.symm⟩), QLoc.set_same]
    have hoth : ∀ a b, ¬ (a = i ∧ b = k) → ¬ (a = a0 ∧ b = b0) →
        QLoc.set (QLoc.set ql i k (.queue j)) a0 b0 .transit a b = ql a b := fun a b e1 e2 => by
      rw [QLoc.set_ne e2, QLoc.set_ne e1]
    generalize hql : QLoc.set (QLoc.set ql i k (.queue j)) a0 b0 .transit = ql' at hik hoth
    have h00 : ql' a0 b0 = .transit := by rw [← hql]; exact QLoc.set_same
    refine ⟨hq, a0, b0, h0', huniq, ?_⟩
    rw [hql]
    refine ⟨⟨h00, ?_, haddr⟩, ?_, ?_, ?_, ?_, ?_, ?_, fun _ => hidx'⟩
    · intro a b hab
      by_cases e2 : a = a0 ∧ b = b0
      · exact e2
      · by_cases e1 : a = i ∧ b = k
        · obtain ⟨rfl, rfl⟩ := e1; rw [hik] at hab; exact absurd hab (by simp)
        · rw [hoth a b e1 e2] at hab
          exact absurd (ht.uniq a b hab) e1
    · intro a b
      show c.quar a b = true ↔ _
      by_cases e2 : a = a0 ∧ b = b0
      · obtain ⟨rfl, rfl⟩ := e2; rw [h00, h.bit, h0']; simp
      · by_cases e1 : a = i ∧ b = k
        · obtain ⟨rfl, rfl⟩ := e1; rw [hik, h.bit, ht.at_]; simp
        · rw [hoth a b e1 e2]; exact h.bit a b
    · intro a b hab
      show c.used a b = true
      by_cases e2 : a = a0 ∧ b = b0
      · obtain ⟨rfl, rfl⟩ := e2; exact h.sub a b (by rw [h0']; simp)
      · by_cases e1 : a = i ∧ b = k
        · obtain ⟨rfl, rfl⟩ := e1; exact h.sub a b (by rw [ht.at_]; simp)
        · rw [hoth a b e1 e2] at hab; exact h.sub a b hab
    · intro a b j' hab
      by_cases e2 : a = a0 ∧ b = b0
      · obtain ⟨rfl, rfl⟩ := e2; rw [h00] at hab; exact absurd hab (by simp)
      · by_cases e1 : a = i ∧ b = k
        · obtain ⟨rfl, rfl⟩ := e1; rw [hik] at hab; exact absurd hab (by simp)
        · rw [hoth a b e1 e2] at hab; exact h.r1 a b j' hab
    · intro j' hj'
      obtain ⟨a, b, hab⟩ := h.r2 j' hj'
      refine ⟨a, b, ?_⟩
      rw [hoth a b (hne a b j' hab) ?_]; exact hab
      rintro ⟨rfl, rfl⟩
      rw [h0'] at hab; exact absurd hab (by simp)
    · intro a b j' hab
      by_cases e2 : a = a0 ∧ b = b0
      · obtain ⟨rfl, rfl⟩ := e2; rw [h00] at hab; exact absurd hab (by simp)
      · by_cases e1 : a = i ∧ b = k
        · obtain ⟨rfl, rfl⟩ := e1; rw [hik] at hab
          have : j = j' := by simpa using hab
          subst this
          exact ⟨by simp [setAt, ht.addr], hj⟩
        · rw [hoth a b e1 e2] at hab
          have hjn : j' ≠ j := fun e' => e2 (huniq a b (e' ▸ hab))
          simp only [setAt, hjn, if_false]
          exact h.q1 a b j' hab
    · intro j' hj'
      by_cases e : j' = j
      · subst e; exact ⟨i, k, hik⟩
      · simp only [setAt, e, if_false] at hj'
        obtain ⟨a, b, hab⟩ := h.q2 j' hj'
        refine ⟨a, b, ?_⟩
        rw [hoth a b (hneq a b j' hab) ?_]; exact hab
        rintro ⟨rfl, rfl⟩
        rw [h0'] at hab
        exact e (by simpa using hab.symm)

/-- Bits do not depend on the quarantine. -/
theorem Bits.congrQ {c c' : SC} {loc : Nat → Loc} (h : Bits g cls c loc)
    (hs : ∀ a, ∃ qb, c'.slabs a = { c.slabs a with qbitmap := qb } ∧ ((∀ b, c.used a b = false) → qb = (c.slabs a).qbitmap))
    (e1 : c'.metaCount = c.metaCount) (e2 : c'.metaAllocated = c.metaAllocated) (e3 : c'.metaUnguarded = c.metaUnguarded) :
    Bits g cls c' loc := by
  have hact : ∀ i, c'.Active g i ↔ c.Active g i := fun i => by unfold SC.Active; rw [e1]
  refine ⟨by rw [e3, e1]; exact h.ung, by rw [e3]; exact h.unglt, by rw [e2]; exact h.mpos, by rw [e2]; exact h.mle,
    by rw [e1, e2]; exact h.mcount, fun i hi => by rw [e2]; exact h.act i ((hact i).mp hi), fun i => by rw [hact]; exact h.fresh i,
    fun i hi => ?_, fun i => ?_, fun i k hk => ?_⟩
  · have hi' : ¬ c.Active g i := fun hh => hi ((hact i).mpr hh)
    obtain ⟨qb, e, hq⟩ := hs i
    have hu : ∀ b, c.used i b = false := fun b => by
      by_contra hc
      exact hi' (h.used_active (by simpa using hc))
    rw [e, hq hu]
    exact h.zero i hi'
  · obtain ⟨qb, e, _⟩ := hs i
    rw [e]; exact h.cnt i
  · obtain ⟨qb, e, _⟩ := hs i
    unfold SC.used; rw [e]; exact h.hi i k hk

theorem setQuar_slab (c : SC) (i k a : Nat) (hu : c.used i k = true) :
    ∃ qb, (c.setQuar i k).slabs a = { c.slabs a with qbitmap := qb } ∧ ((∀ b, c.used a b = false) → qb = (c.slabs a).qbitmap) := by
  unfold SC.setQuar SC.upd
  by_cases h : a = i
  · subst h
    exact ⟨(c.slabs a).qbitmap.set k, by simp, fun hh => by rw [hh k] at hu; exact absurd hu (by simp)⟩
  · exact ⟨(c.slabs a).qbitmap, by simp [h], fun _ => rfl⟩

theorem clearQuar_slab (c : SC) (i k a : Nat) (hu : c.used i k = true) :
    ∃ qb, (c.clearQuar i k).slabs a = { c.slabs a with qbitmap := qb } ∧ ((∀ b, c.used a b = false) → qb = (c.slabs a).qbitmap) := by
  unfold SC.clearQuar SC.upd
  by_cases h : a = i
  · subst h
    exact ⟨(c.slabs a).qbitmap.clear k, by simp, fun hh => by rw [hh k] at hu; exact absurd hu (by simp)⟩
  · exact ⟨(c.slabs a).qbitmap, by simp [h], fun _ => rfl⟩

theorem setQuar_quar (c : SC) (i k a b : Nat) : (c.setQuar i k).quar a b = (c.quar a b || (decide (a = i) && decide (b = k))) := by
  unfold SC.quar SC.setQuar SC.upd
  by_cases h : a = i
  · subst h; simp [Bitmap.bit_set, Bool.or_comm]
  · simp [h]

theorem clearQuar_quar (c : SC) (i k a b : Nat) : (c.clearQuar i k).quar a b = (c.quar a b && !(decide (a = i) && decide (b = k))) := by
  unfold SC.quar SC.clearQuar SC.upd
  by_cases h : a = i
  · subst h; simp [Bitmap.bit_clear, Bool.and_comm]
  · simp [h]

theorem setQuar_used (c : SC) (i k a b : Nat) : (c.setQuar i k).used a b = c.used a b := by
  unfold SC.used SC.setQuar SC.upd
  by_cases h : a = i <;> simp [h]

theorem clearQuar_used (c : SC) (i k a b : Nat) : (c.clearQuar i k).used a b = c.used a b := by
  unfold SC.used SC.clearQuar SC.upd
  by_cases h : a = i <;> simp [h]

theorem setQuar_spec {c : SC} {ql : Nat → Nat → QLoc} {i k : Nat} (h : QArr g base cls c ql)
    (hn : ∀ a b, ql a b ≠ .transit) (hu : c.used i k = true) (hq : ql i k = .none) :
    QArr g base cls (c.setQuar i k) (QLoc.set ql i k .transit) ∧
    InTransit g base cls (QLoc.set ql i k .transit) i k (slotAddr g base cls i k) := by
  have hne : ∀ a b, ql a b ≠ .none → ¬ (a = i ∧ b = k) := by
    rintro a b h1 ⟨rfl, rfl⟩; exact h1 hq
  refine ⟨⟨?_, ?_, ?_, ?_, ?_, ?_, h.idx⟩, QLoc.set_same, ?_, rfl⟩
  · intro a b
    rw [setQuar_quar]
    by_cases e : a = i ∧ b = k
    · obtain ⟨rfl, rfl⟩ := e; simp [QLoc.set_same]
    · rw [QLoc.set_ne e, ← h.bit]
      have : (decide (a = i) && decide (b = k)) = false := by simpa using e
      rw [this]; simp
  · intro a b hab
    rw [setQuar_used]
    by_cases e : a = i ∧ b = k
    · obtain ⟨rfl, rfl⟩ := e; exact hu
    · rw [QLoc.set_ne e] at hab; exact h.sub a b hab
  · intro a b j hab
    by_cases e : a = i ∧ b = k
    · obtain ⟨rfl, rfl⟩ := e; rw [QLoc.set_same] at hab; exact absurd hab (by simp)
    · rw [QLoc.set_ne e] at hab; exact h.r1 a b j hab
  · intro j hj
    obtain ⟨a, b, hab⟩ := h.r2 j hj
    exact ⟨a, b, by rw [QLoc.set_ne (hne a b (by rw [hab]; simp))]; exact hab⟩
  · intro a b j hab
    by_cases e : a = i ∧ b = k
    · obtain ⟨rfl, rfl⟩ := e; rw [QLoc.set_same] at hab; exact absurd hab (by simp)
    · rw [QLoc.set_ne e] at hab; exact h.q1 a b j hab
  · intro j hj
    obtain ⟨a, b, hab⟩ := h.q2 j hj
    exact ⟨a, b, by rw [QLoc.set_ne (hne a b (by rw [hab]; simp))]; exact hab⟩
  · intro a b hab
    by_contra e
    rw [QLoc.set_ne e] at hab
    exact hn a b hab

theorem leaveQuarantine_spec {c : SC} {loc : Nat → Loc} {ql : Nat → Nat → QLoc} {i k p : Nat} (hv : g.Valid)
    (hb : BaseOk g base) (hcls : cls < nClasses g) (hbits : Bits g cls c loc) (h : QArr g base cls c ql)
    (ht : InTransit g base cls ql i k p) :
    leaveQuarantine g base cls c p = .ok (c.clearQuar i k, i, k) ∧
    QArr g base cls (c.clearQuar i k) (QLoc.set ql i k .none) ∧ ∀ a b, QLoc.set ql i k .none a b ≠ .transit := by
  have hu : c.used i k = true := h.sub i k (by rw [ht.at_]; simp)
  have hk := hbits.used_lt hu
  have hm := hbits.used_meta hu
  have G := classGeo g hcls
  have hin : inRange (slabAddr base (g.slabSize cls) i) (g.slabSize cls) p := by
    rw [ht.addr]
    exact slot_range_slab hcls hk ⟨by omega, by have := G.size_ge; omega⟩
  have hne : ∀ a b, ql a b ≠ .transit → ¬ (a = i ∧ b = k) := by
    rintro a b h1 ⟨rfl, rfl⟩; exact h1 ht.at_
  refine ⟨?_, ⟨?_, ?_, ?_, ?_, ?_, ?_, h.idx⟩, ?_⟩
  · unfold leaveQuarantine
    rw [getMetadata_in hv hb hcls hm.1 hbits.mle hin]
    simp only [Res.bind_ok]
    rw [ht.addr, slotIndex_addr hb hcls hm.2 hk, if_neg (by have := G.slots_le; omega)]
  · intro a b
    rw [clearQuar_quar]
    by_cases e : a = i ∧ b = k
    · obtain ⟨rfl, rfl⟩ := e; simp [QLoc.set_same]
    · rw [QLoc.set_ne e, ← h.bit]
      have : (decide (a = i) && decide (b = k)) = false := by simpa using e
      rw [this]; simp
  · intro a b hab
    rw [clearQuar_used]
    by_cases e : a = i ∧ b = k
    · obtain ⟨rfl, rfl⟩ := e; exact hu
    · rw [QLoc.set_ne e] at hab; exact h.sub a b hab
  · intro a b j hab
    by_cases e : a = i ∧ b = k
    · obtain ⟨rfl, rfl⟩ := e; rw [QLoc.set_same] at hab; exact absurd hab (by simp)
    · rw [QLoc.set_ne e] at hab; exact h.r1 a b j hab
  · intro j hj
    obtain ⟨a, b, hab⟩ := h.r2 j hj
    exact ⟨a, b, by rw [QLoc.set_ne (hne a b (by rw [hab]; simp))]; exact hab⟩
  · intro a b j hab
    by_cases e : a = i ∧ b = k
    · obtain ⟨rfl, rfl⟩ := e; rw [QLoc.set_same] at hab; exact absurd hab (by simp)
    · rw [QLoc.set_ne e] at hab; exact h.q1 a b j hab
  · intro j hj
    obtain ⟨a, b, hab⟩ := h.q2 j hj
    exact ⟨a, b, by rw [QLoc.set_ne (hne a b (by rw [hab]; simp))]; exact hab⟩
  · intro a b hab
    by_cases e : a = i ∧ b = k
    · obtain ⟨rfl, rfl⟩ := e; rw [QLoc.set_same] at hab; exact absurd hab (by simp)
    · rw [QLoc.set_ne e] at hab
      exact e (ht.uniq a b hab)

/-- Result of quarantining slot `(i, k)`: nothing, or one slot, leaves the quarantine. -/
structure Quarantined (g : Cfg) (base cls : Nat) (c c' : SC) (ql ql' : Nat → Nat → QLoc) (i k : Nat) (out : Option (Nat × Nat)) : Prop where
  slabs : ∀ a, ∃ qb, c'.slabs a = { c.slabs a with qbitmap := qb } ∧ ((∀ b, c.used a b = false) → qb = (c.slabs a).qbitmap)
  rest : ∃ r q x, c' = { c with slabs := c'.slabs, qrand := r, qqueue := q, qidx := x }
  qarr : QArr g base cls c' ql'
  notransit : ∀ a b, ql' a b ≠ .transit
  step : ∃ pushed, QStep g cls c c' ql ql' i k pushed
  leaves : ∀ a b, ql' a b = .none ↔ (ql a b = .none ∧ ¬ (a = i ∧ b = k)) ∨ out = some (a, b)
  was : ∀ a b, out = some (a, b) → c.used a b = true ∧ (ql a b ≠ .none ∨ (a = i ∧ b = k))

theorem quarantineSlot_spec {c : SC} {loc : Nat → Loc} {ql : Nat → Nat → QLoc} {ch : Choice} {i k : Nat} (hv : g.Valid)
    (hb : BaseOk g base) (hcls : cls < nClasses g) (hbits : Bits g cls c loc) (h : QArr g base cls c ql)
    (hnt : ∀ a b, ql a b ≠ .transit) (hu : c.used i k = true) :
    match quarantineSlot g base cls ch c (slotAddr g base cls i k) i k with
    | .ok (c', out) => c.quar i k = false ∧ ∃ ql', Quarantined g base cls c c' ql ql' i k out
    | .fatal _ => c.quar i k = true
    | _ => False := by
  unfold quarantineSlot
  by_cases hs : g.slabQuarantine = true
  · rw [if_neg (by simp [hs])]
    by_cases hq : c.quar i k = true
    · rw [if_pos (by rw [Bitmap.get_eq]; exact hq)]
      exact hq
    · rw [if_neg (by rw [Bitmap.get_eq]; exact hq)]
      have hqn : ql i k = .none := by
        by_contra hc
        exact hq ((h.bit i k).mpr hc)
      have hqf : c.quar i k = false := by simpa using hq
      obtain ⟨hA0, hT0⟩ := setQuar_spec h hnt hu hqn
      have hsl0 := fun a => setQuar_slab c i k a hu
      have hu0 := setQuar_used c i k
      have he0 : c.setQuar i k = { c with slabs := (c.setQuar i k).slabs } := rfl
      have hB0 : Bits g cls (c.setQuar i k) loc := hbits.congrQ hsl0 rfl rfl rfl
      have hql0 : ∀ a b, ¬ (a = i ∧ b = k) → QLoc.set ql i k .transit a b = ql a b := fun a b e => QLoc.set_ne e
      generalize c.setQuar i k = c0 at hA0 hsl0 hu0 he0 hB0
      generalize QLoc.set ql i k .transit = ql0 at hA0 hT0 hql0
      have hidx0 : c0.qidx = c.qidx := by rw [he0]
      -- what happens from the queue on, for any slot in transit
      have tail : ∀ (c1 : SC) (ql1 : Nat → Nat → QLoc) (a0 b0 p : Nat), QArr g base cls c1 ql1 → InTransit g base cls ql1 a0 b0 p →
          (∃ r, c1 = { c0 with qrand := r }) → p ≠ 0 →
          (ql a0 b0 ≠ .none ∧ (∃ j, ql a0 b0 = .rand j) ∧ g.slabQRandom ≠ 0 ∧ ¬ (a0 = i ∧ b0 = k) ∧ (∃ j, ql1 i k = .rand j) ∨ (a0 = i ∧ b0 = k) ∧ g.slabQRandom = 0) →
          (∀ a b, ¬ (a = i ∧ b = k) → ¬ (a = a0 ∧ b = b0) → ql1 a b = ql a b) →
          match (do
            let (c, p) ← pushQueue g (g.slotSize cls) c1 p
            if p = 0 then .ok (c, none)
            else do
              let (c, m, slot) ← leaveQuarantine g base cls c p
              .ok (c, some (m, slot)) : Res (SC × Option (Nat × Nat))) with
          | .ok (c', out) => c.quar i k = false ∧ ∃ ql', Quarantined g base cls c c' ql ql' i k out
          | .fatal _ => c.quar i k = true
          | _ => False := by
        intro c1 ql1 a0 b0 p hA1 hT1 hc1 hp hcase hoth1
        obtain ⟨r, hc1⟩ := hc1
        have hB1 : Bits g cls c1 loc := by
          rw [hc1]
          exact hB0.congrQ (fun a => ⟨_, rfl, fun _ => rfl⟩) rfl rfl rfl
        have hu1 : ∀ a b, c1.used a b = c.used a b := by rw [hc1]; exact hu0
        have hsl1 : ∀ a, ∃ qb, c1.slabs a = { c.slabs a with qbitmap := qb } ∧
          ((∀ b, c.used a b = false) → qb = (c.slabs a).qbitmap) := by rw [hc1]; exact hsl0
        have hidx1 : c1.qidx = c.qidx := by rw [hc1]; exact hidx0
        have hik1 : ¬ (a0 = i ∧ b0 = k) → ql1 i k ≠ .none := fun hh => by
          rcases hcase with ⟨_, _, _, _, j, hj⟩ | ⟨hj, _⟩
          · rw [hj]; simp
          · exact absurd hj hh
        by_cases h0 : g.slabQQueue = 0
        · unfold pushQueue
          rw [if_pos h0]
          simp only [Res.bind_ok]
          rw [if_neg hp]
          obtain ⟨e1, e2, e3⟩ := leaveQuarantine_spec hv hb hcls hB1 hA1 hT1
          rw [e1]
          simp only [Res.bind_ok]
          have hua : c1.used a0 b0 = true := hA1.sub a0 b0 (by rw [hT1.at_]; simp)
          refine ⟨hqf, QLoc.set ql1 a0 b0 .none, ?_, ?_, e2, e3, ⟨false, ?_, ?_, ?_⟩, ?_, ?_⟩
          · intro a
            obtain ⟨q1, w1, w2⟩ := clearQuar_slab c1 a0 b0 a hua
            obtain ⟨q2, w3, w4⟩ := hsl1 a
            refine ⟨q1, by rw [w1, w3], fun hh => ?_⟩
            rw [w2 (fun b => by rw [hu1]; exact hh b), w3]; exact w4 hh
          · refine ⟨c1.qrand, c1.qqueue, c1.qidx, ?_⟩
            have : c1.clearQuar a0 b0 = { c1 with slabs := (c1.clearQuar a0 b0).slabs } := rfl
            rw [this, hc1, he0]
          · show c1.qidx = _
            rw [hidx1]; simp
          · by_cases hr : g.slabQRandom = 0
            · simp only [hr, h0, ne_eq, not_true, if_false]
              rcases hcase with hh | ⟨⟨rfl, rfl⟩, _⟩
              · exact absurd hr hh.2.2.1
              · exact QLoc.set_same
            · simp only [hr, ne_eq, not_false_iff, if_true]
              rcases hcase with ⟨_, _, _, w1, j, hj⟩ | ⟨_, w⟩
              · exact ⟨j, by rw [QLoc.set_ne (fun e => w1 ⟨e.1.symm, e.2.symm⟩)]; exact hj⟩
              · exact absurd w hr
          · intro a b e
            by_cases e2 : a = a0 ∧ b = b0
            · obtain ⟨rfl, rfl⟩ := e2
              right; left
              rcases hcase with ⟨_, w, _⟩ | ⟨w, _⟩
              · exact ⟨w, by simp [h0, QLoc.set_same]⟩
              · exact absurd w e
            · left; rw [QLoc.set_ne e2, hoth1 a b e e2]; simp
          · intro a b
            by_cases e2 : a = a0 ∧ b = b0
            · obtain ⟨rfl, rfl⟩ := e2; simp [QLoc.set_same]
            · rw [QLoc.set_ne e2]
              have e2' : ¬ (some (a0, b0) = some (a, b)) := by
                simp only [Option.some.injEq, Prod.mk.injEq, not_and]
                intro w1 w2; exact e2 ⟨w1.symm, w2.symm⟩
              by_cases e : a = i ∧ b = k
              · obtain ⟨rfl, rfl⟩ := e
                have := hik1 (fun w => e2 ⟨w.1.symm, w.2.symm⟩)
                simp only [e2', or_false, and_self, not_true, and_false, iff_false]
                exact this
              · rw [hoth1 a b e e2]
                simp only [e2', or_false, e, not_false_iff, and_true]
          · intro a b hab
            simp only [Option.some.injEq, Prod.mk.injEq] at hab
            obtain ⟨rfl, rfl⟩ := hab
            refine ⟨by rw [← hu1]; exact hua, ?_⟩
            rcases hcase with ⟨w, _⟩ | ⟨w, _⟩
            · exact Or.inl w
            · exact Or.inr w
        · obtain ⟨q, fr, e1, hcases⟩ := pushQueue_spec hv hb hcls hB1 hA1 hT1 h0
          rw [e1]
          simp only [Res.bind_ok]
          rw [hidx1] at hcases ⊢
          have hself : ∀ ql2 : Nat → Nat → QLoc, ((a0 = i ∧ b0 = k) → ql2 a0 b0 = .queue c.qidx) →
              (¬ (a0 = i ∧ b0 = k) → ql2 i k = ql1 i k) →
              (if g.slabQRandom ≠ 0 then ∃ j, ql2 i k = .rand j
                else if g.slabQQueue ≠ 0 then (true = true) ∧ ql2 i k = .queue c.qidx else ql2 i k = .none) := by
            intro ql2 w1 w2
            by_cases hr : g.slabQRandom = 0
            · simp only [hr, h0, ne_eq, not_true, not_false_iff, if_false, if_true]
              rcases hcase with hh | ⟨⟨rfl, rfl⟩, _⟩
              · exact absurd hr hh.2.2.1
              · exact ⟨trivial, w1 ⟨rfl, rfl⟩⟩
            · simp only [hr, ne_eq, not_false_iff, if_true]
              rcases hcase with ⟨_, _, _, w3, j, hj⟩ | ⟨_, w⟩
              · exact ⟨j, by rw [w2 w3]; exact hj⟩
              · exact absurd w hr
          rcases hcases with ⟨hq0, hno, hA2⟩ | ⟨hq0, a1, b1, h1, hun, hT2, hA2⟩
          · rw [if_pos hq0]
            refine ⟨hqf, QLoc.set ql1 a0 b0 (.queue c.qidx), hsl1, ?_, hA2, ?_, ⟨true, ?_, ?_, ?_⟩, ?_, ?_⟩
            · exact ⟨c1.qrand, fr, (c.qidx + 1) % lenQ g cls, by rw [hc1, he0]⟩
            · intro a b hab
              by_cases e : a = a0 ∧ b = b0
              · obtain ⟨rfl, rfl⟩ := e; rw [QLoc.set_same] at hab; exact absurd hab (by simp)
              · rw [QLoc.set_ne e] at hab; exact e (hT1.uniq a b hab)
            · simp
            · exact hself _ (fun _ => QLoc.set_same) (fun w => QLoc.set_ne (fun e => w ⟨e.1.symm, e.2.symm⟩))
            · intro a b e
              by_cases e2 : a = a0 ∧ b = b0
              · obtain ⟨rfl, rfl⟩ := e2
                right; left
                rcases hcase with ⟨_, w, _⟩ | ⟨w, _⟩
                · exact ⟨w, by simp [h0, QLoc.set_same]⟩
                · exact absurd w e
              · left
                rw [QLoc.set_ne e2, hoth1 a b e e2]
                refine ⟨rfl, fun _ => ?_⟩
                rw [← hoth1 a b e e2]; exact hno a b
            · intro a b
              simp only [reduceCtorEq, or_false]
              by_cases e2 : a = a0 ∧ b = b0
              · obtain ⟨rfl, rfl⟩ := e2
                rw [QLoc.set_same]
                simp only [reduceCtorEq, false_iff, not_and]
                rcases hcase with ⟨w, _⟩ | ⟨w, _⟩
                · exact fun hh => absurd hh w
                · exact fun _ hh => hh w.1 w.2
              · rw [QLoc.set_ne e2]
                by_cases e : a = i ∧ b = k
                · obtain ⟨rfl, rfl⟩ := e
                  have := hik1 (fun w => e2 ⟨w.1.symm, w.2.symm⟩)
                  simp only [and_self, not_true, and_false, iff_false]
                  exact this
                · rw [hoth1 a b e e2]
                  simp only [e, not_false_iff, and_true]
            · intro a b hab; exact absurd hab (by simp)
          · rw [if_neg hq0]
            generalize hc2 : ({ c1 with qqueue := fr, qidx := (c.qidx + 1) % lenQ g cls } : SC) = c2 at hA2
            have hB2 : Bits g cls c2 loc := by
              rw [← hc2]; exact hB1.congrQ (fun a => ⟨_, rfl, fun _ => rfl⟩) rfl rfl rfl
            have hu2 : ∀ a b, c2.used a b = c.used a b := by rw [← hc2]; exact hu1
            obtain ⟨f1, f2, f3⟩ := leaveQuarantine_spec hv hb hcls hB2 hA2 hT2
            rw [f1]
            simp only [Res.bind_ok]
            have hua : c2.used a1 b1 = true := hA2.sub a1 b1 (by rw [hT2.at_]; simp)
            have hne1 : ¬ (a1 = a0 ∧ b1 = b0) := by
              rintro ⟨rfl, rfl⟩; rw [hT1.at_] at h1; exact absurd h1 (by simp)
            have hne1i : ¬ (a1 = i ∧ b1 = k) := by
              rintro ⟨rfl, rfl⟩
              rcases hcase with ⟨_, _, _, _, j, hj⟩ | ⟨w, _⟩
              · rw [hj] at h1; exact absurd h1 (by simp)
              · exact hne1 ⟨w.1.symm, w.2.symm⟩
            have h1' : ql a1 b1 = .queue c.qidx := by rw [← hoth1 a1 b1 hne1i hne1]; exact h1
            -- the final positions
            have p1 : QLoc.set (QLoc.set (QLoc.set ql1 a0 b0 (.queue c.qidx)) a1 b1 .transit) a1 b1 .none a1 b1 = .none :=
              QLoc.set_same
            have p0 : QLoc.set (QLoc.set (QLoc.set ql1 a0 b0 (.queue c.qidx)) a1 b1 .transit) a1 b1 .none a0 b0 = .queue c.qidx := by
              rw [QLoc.set_ne (fun e => hne1 ⟨e.1.symm, e.2.symm⟩), QLoc.set_ne (fun e => hne1 ⟨e.1.symm, e.2.symm⟩), QLoc.set_same]
            have po : ∀ a b, ¬ (a = a0 ∧ b = b0) → ¬ (a = a1 ∧ b = b1) →
                QLoc.set (QLoc.set (QLoc.set ql1 a0 b0 (.queue c.qidx)) a1 b1 .transit) a1 b1 .none a b = ql1 a b := by
              intro a b w1 w2
              rw [QLoc.set_ne w2, QLoc.set_ne w2, QLoc.set_ne w1]
            generalize QLoc.set (QLoc.set (QLoc.set ql1 a0 b0 (.queue c.qidx)) a1 b1 .transit) a1 b1 .none = ql3 at f2 f3 p1 p0 po
            refine ⟨hqf, ql3, ?_, ?_, f2, f3, ⟨true, ?_, ?_, ?_⟩, ?_, ?_⟩
            · intro a
              obtain ⟨q1, w1, w2⟩ := clearQuar_slab c2 a1 b1 a hua
              have hs2 : c2.slabs a = c1.slabs a := by rw [← hc2]
              obtain ⟨q2, w3, w4⟩ := hsl1 a
              refine ⟨q1, by rw [w1, hs2, w3], fun hh => ?_⟩
              rw [w2 (fun b => by rw [hu2]; exact hh b), hs2, w3]; exact w4 hh
            · refine ⟨c1.qrand, fr, (c.qidx + 1) % lenQ g cls, ?_⟩
              have : c2.clearQuar a1 b1 = { c2 with slabs := (c2.clearQuar a1 b1).slabs } := rfl
              rw [this, ← hc2, hc1, he0]
            · show c2.qidx = _
              rw [← hc2]; simp
            · refine hself _ (fun _ => p0) (fun w => po i k (fun e => w ⟨e.1.symm, e.2.symm⟩) (fun e => hne1i ⟨e.1.symm, e.2.symm⟩))
            · intro a b e
              by_cases e2 : a = a0 ∧ b = b0
              · obtain ⟨rfl, rfl⟩ := e2
                right; left
                rcases hcase with ⟨_, w, _⟩ | ⟨w, _⟩
                · exact ⟨w, by simp [h0, p0]⟩
                · exact absurd w e
              · by_cases e3 : a = a1 ∧ b = b1
                · obtain ⟨rfl, rfl⟩ := e3
                  right; right
                  exact ⟨rfl, h1', p1⟩
                · left
                  rw [po a b e2 e3, hoth1 a b e e2]
                  refine ⟨rfl, fun _ hh => e3 (hun a b ?_)⟩
                  rw [hoth1 a b e e2]; exact hh
            · intro a b
              by_cases e3 : a = a1 ∧ b = b1
              · obtain ⟨rfl, rfl⟩ := e3; simp [p1]
              · have e3' : ¬ (some (a1, b1) = some (a, b)) := by
                  simp only [Option.some.injEq, Prod.mk.injEq, not_and]
                  intro w1 w2; exact e3 ⟨w1.symm, w2.symm⟩
                simp only [e3', or_false]
                by_cases e2 : a = a0 ∧ b = b0
                · obtain ⟨rfl, rfl⟩ := e2
                  rw [p0]
                  simp only [reduceCtorEq, false_iff, not_and]
                  rcases hcase with ⟨w, _⟩ | ⟨w, _⟩
                  · exact fun hh => absurd hh w
                  · exact fun _ hh => hh w.1 w.2
                · rw [po a b e2 e3]
                  by_cases e : a = i ∧ b = k
                  · obtain ⟨rfl, rfl⟩ := e
                    have := hik1 (fun w => e2 ⟨w.1.symm, w.2.symm⟩)
                    simp only [and_self, not_true, and_false, iff_false]
                    exact this
                  · rw [hoth1 a b e e2]
                    simp only [e, not_false_iff, and_true]
            · intro a b hab
              simp only [Option.some.injEq, Prod.mk.injEq] at hab
              obtain ⟨rfl, rfl⟩ := hab
              exact ⟨by rw [← hu2]; exact hua, Or.inl (by rw [h1']; simp)⟩
      by_cases hr : g.slabQRandom = 0
      · simp only
        unfold pushRandom
        rw [if_pos hr]
        simp only [Res.bind_ok]
        have hp : slotAddr g base cls i k ≠ 0 := slotAddr_pos hb i k
        rw [if_neg hp]
        exact tail c0 ql0 i k _ hA0 hT0 ⟨c0.qrand, rfl⟩ hp (Or.inr ⟨⟨rfl, rfl⟩, hr⟩) (fun a b e _ => hql0 a b e)
      · obtain ⟨q, j, fr, e1, hcases⟩ := pushRandom_spec (ch := ch) hv hb hcls hB0 hA0 hT0 hr
        simp only
        rw [e1]
        simp only [Res.bind_ok]
        rcases hcases with ⟨hq0, hA1⟩ | ⟨hq0, a1, b1, h1, hT1, hA1⟩
        · rw [if_pos hq0]
          refine ⟨hqf, QLoc.set ql0 i k (.rand j), hsl0, ?_, hA1, ?_, ⟨false, ?_, ?_, ?_⟩, ?_, ?_⟩
          · exact ⟨fr, c.qqueue, c.qidx, by rw [he0]⟩
          · intro a b hab
            by_cases e : a = i ∧ b = k
            · obtain ⟨rfl, rfl⟩ := e; rw [QLoc.set_same] at hab; exact absurd hab (by simp)
            · rw [QLoc.set_ne e] at hab; exact e (hT0.uniq a b hab)
          · simp [hidx0]
          · simp only [hr, ne_eq, not_false_iff, if_true]
            exact ⟨j, QLoc.set_same⟩
          · intro a b e
            left
            rw [QLoc.set_ne e, hql0 a b e]; simp
          · intro a b
            by_cases e : a = i ∧ b = k
            · obtain ⟨rfl, rfl⟩ := e; simp [QLoc.set_same]
            · rw [QLoc.set_ne e, hql0 a b e]; simp [e]
          · intro a b hab; exact absurd hab (by simp)
        · rw [if_neg hq0]
          have hne : ¬ (a1 = i ∧ b1 = k) := by
            rintro ⟨rfl, rfl⟩; rw [hT0.at_] at h1; exact absurd h1 (by simp)
          have h1' : ql a1 b1 = .rand j := by rw [← hql0 a1 b1 hne]; exact h1
          refine tail _ _ a1 b1 q hA1 hT1 ⟨fr, rfl⟩ hq0 (Or.inl ⟨by rw [h1']; simp, ⟨j, h1'⟩, hr, hne, j, ?_⟩) ?_
          · rw [QLoc.set_ne (fun e => hne ⟨e.1.symm, e.2.symm⟩), QLoc.set_same]
          · intro a b e e2
            rw [QLoc.set_ne e2, QLoc.set_ne e, hql0 a b e]
  · have hsf : g.slabQuarantine = false := by simpa using hs
    rw [if_pos (by simp [hsf])]
    have hz : g.slabQRandom = 0 ∧ g.slabQQueue = 0 := by
      unfold Cfg.slabQuarantine at hsf
      simp only [Bool.or_eq_false_iff, decide_eq_false_iff_not] at hsf
      omega
    have hz0 : ∀ s, shl64 0 s = 0 := fun s => by simp [shl64]
    have hall : ∀ a b, ql a b = .none := by
      intro a b
      cases hab : ql a b with
      | none => rfl
      | transit => exact absurd hab (hnt a b)
      | rand j => have := (h.r1 a b j hab).2; rw [hz.1, hz0] at this; omega
      | queue j => have := (h.q1 a b j hab).2; rw [hz.2, hz0] at this; omega
    have hqf : c.quar i k = false := by
      by_contra hc
      exact (h.bit i k).mp (by simpa using hc) (hall i k)
    refine ⟨hqf, ql, fun a => ⟨_, rfl, fun _ => rfl⟩, ⟨c.qrand, c.qqueue, c.qidx, rfl⟩, h, hnt, ⟨false, ?_, ?_, ?_⟩, ?_, ?_⟩
    · simp
    · simp [hz.1, hz.2, hall]
    · intro a b _; left; simp
    · intro a b
      simp only [hall, true_and, Option.some.injEq, Prod.mk.injEq, true_iff]
      by_cases e : a = i ∧ b = k
      · right; exact ⟨e.1.symm, e.2.symm⟩
      · exact Or.inl e
    · intro a b hab
      simp only [Option.some.injEq, Prod.mk.injEq] at hab
      obtain ⟨rfl, rfl⟩ := hab
      exact ⟨hu, Or.inr ⟨rfl, rfl⟩⟩

end
end HM
