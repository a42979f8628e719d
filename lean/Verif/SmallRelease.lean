import Verif.SmallFree
/-
Releasing a slot: `releaseSlot` and `retireSlab`.
-/
namespace HM

section
variable {g : Cfg} {base cls : Nat}

/-- Only links, list heads and the amount of memory in slabs differ. -/
structure LinkOnly (loc : Nat → Loc) (c c' : SC) : Prop where
  slabs : ∀ a, ∃ n p, c'.slabs a = { c.slabs a with next := n, prev := p }
  fresh : ∀ a, loc a = .fresh → c'.slabs a = c.slabs a
  mc : c'.metaCount = c.metaCount
  ma : c'.metaAllocated = c.metaAllocated
  mu : c'.metaUnguarded = c.metaUnguarded
  qr : c'.qrand = c.qrand
  qq : c'.qqueue = c.qqueue
  qi : c'.qidx = c.qidx
  nm : c'.nmalloc = c.nmalloc
  nd : c'.ndalloc = c.ndalloc
  al : c'.allocated = c.allocated

theorem LinkOnly.trans {loc loc1 : Nat → Loc} {c c1 c2 : SC} (h : LinkOnly loc c c1) (h' : LinkOnly loc1 c1 c2)
    (hl : ∀ a, loc a = .fresh → loc1 a = .fresh) : LinkOnly loc c c2 where
  slabs := fun a => by
    obtain ⟨n, p, e⟩ := h.slabs a
    obtain ⟨n', p', e'⟩ := h'.slabs a
    exact ⟨n', p', by rw [e', e]⟩
  fresh := fun a ha => (h'.fresh a (hl a ha)).trans (h.fresh a ha)
  mc := h'.mc.trans h.mc
  ma := h'.ma.trans h.ma
  mu := h'.mu.trans h.mu
  qr := h'.qr.trans h.qr
  qq := h'.qq.trans h.qq
  qi := h'.qi.trans h.qi
  nm := h'.nm.trans h.nm
  nd := h'.nd.trans h.nd
  al := h'.al.trans h.al

/-- The slab metadata after slot `(m, k)` has been released. -/
structure Released (c c' : SC) (loc : Nat → Loc) (m k : Nat) : Prop where
  other : ∀ a, a ≠ m → ∃ n p, c'.slabs a = { c.slabs a with next := n, prev := p }
  self : ∃ n p, c'.slabs m =
    { c.slabs m with next := n, prev := p, bitmap := (c.slabs m).bitmap.clear k, count := (c.slabs m).count - 1 }
  fresh : ∀ a, loc a = .fresh → a ≠ m → c'.slabs a = c.slabs a
  mc : c'.metaCount = c.metaCount
  ma : c'.metaAllocated = c.metaAllocated
  mu : c'.metaUnguarded = c.metaUnguarded
  qr : c'.qrand = c.qrand
  qq : c'.qqueue = c.qqueue
  qi : c'.qidx = c.qidx
  nm : c'.nmalloc = c.nmalloc
  nd : c'.ndalloc = c.ndalloc
  al : c'.allocated = c.allocated

theorem Released.used {c c' : SC} {loc : Nat → Loc} {m k : Nat} (h : Released c c' loc m k) (a b : Nat) :
    c'.used a b = (c.used a b && !(decide (a = m) && decide (b = k))) := by
  unfold SC.used
  by_cases e : a = m
  · subst e
    obtain ⟨n, p, e⟩ := h.self
    rw [e]; simp [Bitmap.bit_clear, Bool.and_comm]
  · obtain ⟨n, p, e'⟩ := h.other a e
    rw [e']; simp [e]

theorem Released.quar {c c' : SC} {loc : Nat → Loc} {m k : Nat} (h : Released c c' loc m k) (a b : Nat) :
    c'.quar a b = c.quar a b := by
  unfold SC.quar
  by_cases e : a = m
  · subst e
    obtain ⟨n, p, e⟩ := h.self
    rw [e]
  · obtain ⟨n, p, e'⟩ := h.other a e
    rw [e']

theorem Released.canary {c c' : SC} {loc : Nat → Loc} {m k : Nat} (h : Released c c' loc m k) (a : Nat) :
    (c'.slabs a).canary = (c.slabs a).canary := by
  by_cases e : a = m
  · subst e
    obtain ⟨n, p, e⟩ := h.self
    rw [e]
  · obtain ⟨n, p, e'⟩ := h.other a e
    rw [e']

theorem clearUsed_slab (c : SC) (m k : Nat) (h : 0 < (c.slabs m).count) (h2 : (c.slabs m).count < 65536) :
    (c.clearUsed m k).slabs m =
      { c.slabs m with bitmap := (c.slabs m).bitmap.clear k, count := (c.slabs m).count - 1 } := by
  unfold SC.clearUsed SC.upd
  simp only [if_true]
  rw [show ((c.slabs m).count + 65535) % 65536 = (c.slabs m).count - 1 by omega]

theorem clearUsed_other (c : SC) {m i : Nat} (k : Nat) (h : i ≠ m) : (c.clearUsed m k).slabs i = c.slabs i := by
  unfold SC.clearUsed SC.upd
  simp [h]

theorem Released.mk' {c c1 c2 : SC} {loc loc1 : Nat → Loc} {m k : Nat} (h1 : LinkOnly loc c c1)
    (h2 : LinkOnly loc1 (c1.clearUsed m k) c2) (hl : ∀ a, loc a = .fresh → loc1 a = .fresh)
    (h : 0 < (c.slabs m).count) (h' : (c.slabs m).count < 65536) : Released c c2 loc m k := by
  have hcc : c1.clearUsed m k = { c1 with slabs := (c1.clearUsed m k).slabs } := rfl
  have e0 : (c1.slabs m).count = (c.slabs m).count := by obtain ⟨n, p, e⟩ := h1.slabs m; rw [e]
  constructor
  · intro a ha
    obtain ⟨n, p, e⟩ := h2.slabs a
    rw [clearUsed_other c1 k ha] at e
    obtain ⟨n', p', e'⟩ := h1.slabs a
    exact ⟨n, p, by rw [e, e']⟩
  · obtain ⟨n, p, e⟩ := h2.slabs m
    rw [clearUsed_slab c1 m k (by omega) (by omega)] at e
    obtain ⟨n', p', e'⟩ := h1.slabs m
    exact ⟨n, p, by rw [e, e']⟩
  · intro a ha hm
    rw [h2.fresh a (hl a ha), clearUsed_other c1 k hm, h1.fresh a ha]
  · rw [h2.mc, hcc]; exact h1.mc
  · rw [h2.ma, hcc]; exact h1.ma
  · rw [h2.mu, hcc]; exact h1.mu
  · rw [h2.qr, hcc]; exact h1.qr
  · rw [h2.qq, hcc]; exact h1.qq
  · rw [h2.qi, hcc]; exact h1.qi
  · rw [h2.nm, hcc]; exact h1.nm
  · rw [h2.nd, hcc]; exact h1.nd
  · rw [h2.al, hcc]; exact h1.al

theorem SCInv.released {c c' : SC} {P E F P' E' F' : List Nat} {loc loc' : Nat → Loc} {ql : Nat → Nat → QLoc} {m k : Nat}
    (h : SCInv g base cls c P E F loc ql) (hu : c.used m k = true) (hq : ql m k = .none) (hr : Released c c' loc m k)
    (hl : Lists g c' P' E' F' loc') (he : c'.emptyTotal = E'.length * g.slabSize cls)
    (hf : ∀ i, loc' i = .fresh ↔ loc i = .fresh)
    (hc : ∀ i, i ≠ m → CountOk (g.slots cls) (loc' i) (c.slabs i).count)
    (hcm : CountOk (g.slots cls) (loc' m) ((c.slabs m).count - 1)) : SCInv g base cls c' P' E' F' loc' ql := by
  have hact : ∀ i, c'.Active g i ↔ c.Active g i := fun i => by unfold SC.Active; rw [hr.mc]
  have hma := h.bits.used_active hu
  refine ⟨hl, he, ⟨?_, ?_, ?_, ?_, ?_, ?_, ?_, ?_, ?_, ?_⟩, ?_, ⟨?_, ?_, ?_, ?_, ?_, ?_, ?_⟩, h.notransit⟩
  · rw [hr.mu, hr.mc]; exact h.bits.ung
  · rw [hr.mu]; exact h.bits.unglt
  · rw [hr.ma]; exact h.bits.mpos
  · rw [hr.ma]; exact h.bits.mle
  · rw [hr.mc, hr.ma]; exact h.bits.mcount
  · intro i hi; rw [hr.ma]; exact h.bits.act i ((hact i).mp hi)
  · intro i; rw [hf, hact]; exact h.bits.fresh i
  · intro i hi
    have hi' : ¬ c.Active g i := fun hh => hi ((hact i).mpr hh)
    have him : i ≠ m := fun e => hi' (e ▸ hma)
    rw [hr.fresh i ((h.bits.fresh i).mpr hi') him]
    exact h.bits.zero i hi'
  · intro i
    by_cases e : i = m
    · subst e
      obtain ⟨n, p, e⟩ := hr.self
      rw [e]
      have := bitCount_clear (h.bits.used_lt hu) hu
      show (c.slabs i).count - 1 = bitCount ((c.slabs i).bitmap.clear k) _
      rw [h.bits.cnt i, ← this]; rfl
    · obtain ⟨n, p, e'⟩ := hr.other i e
      rw [e']; exact h.bits.cnt i
  · intro i b hb
    rw [hr.used, h.bits.hi i b hb]; simp
  · intro i
    by_cases e : i = m
    · subst e
      obtain ⟨n, p, e⟩ := hr.self
      rw [e]; exact hcm
    · obtain ⟨n, p, e'⟩ := hr.other i e
      rw [e']; exact hc i e
  · intro i b; rw [hr.quar]; exact h.qarr.bit i b
  · intro i b hib
    rw [hr.used]
    have hne : ¬ (i = m ∧ b = k) := by rintro ⟨rfl, rfl⟩; exact hib hq
    have : (decide (i = m) && decide (b = k)) = false := by simpa using hne
    rw [this, h.qarr.sub i b hib]; rfl
  · intro i b j hj; rw [hr.qr]; exact h.qarr.r1 i b j hj
  · intro j hj; rw [hr.qr] at hj; exact h.qarr.r2 j hj
  · intro i b j hj; rw [hr.qq]; exact h.qarr.q1 i b j hj
  · intro j hj; rw [hr.qq] at hj; exact h.qarr.q2 j hj
  · intro h0; rw [hr.qi]; exact h.qarr.idx h0

/-! ### List operations -/

theorem linkPartial_spec {c : SC} {P E F : List Nat} {loc : Nat → Loc} {m slots : Nat} (h : Lists g c P E F loc)
    (hl : (loc m = .out ∧ (c.slabs m).count = slots) ∨ (loc m = .part ∧ (c.slabs m).count < slots)) :
    ∃ P', Lists g (c.linkPartial slots m) P' E F (Loc.set loc m .part) ∧ LinkOnly loc c (c.linkPartial slots m) ∧
      (c.linkPartial slots m).emptyTotal = c.emptyTotal ∧ (c.linkPartial slots m).slabAllocated = c.slabAllocated := by
  unfold SC.linkPartial SC.hasFreeSlots
  rcases hl with ⟨hl, hc⟩ | ⟨hl, hc⟩
  · rw [if_pos (by simp [hc])]
    have hP : ∀ i, i ∈ P → i ≠ m := fun i hi e => by
      have := (h.pm i).mp hi; rw [e, hl] at this; exact absurd this (by simp)
    have hph : ∀ i, c.partialHead = some i → i ≠ m := fun i hi => by
      rw [h.ph] at hi
      exact hP i (List.mem_of_mem_head? (by rw [hi]; simp))
    cases hp : c.partialHead with
    | none =>
      refine ⟨m :: P, h.pushPartial hl ?_ ?_ ?_ ?_ ?_ ?_ ?_ ?_, ⟨?_, ?_, ?_, ?_, ?_, ?_, ?_, ?_, ?_, ?_, ?_⟩, ?_, ?_⟩
      all_goals simp only [SC.setPrev, SC.upd, hp, if_true]
      · simp
      · intro i hi; simp [hi]
      · intro i hi; simp [hi]
      · intro a
        by_cases e : a = m
        · subst e; exact ⟨none, none, by simp⟩
        · exact ⟨(c.slabs a).next, (c.slabs a).prev, by simp [e]⟩
      · intro a ha
        have : a ≠ m := fun e => by rw [e, hl] at ha; exact absurd ha (by simp)
        simp [this]
    | some q =>
      have hqm := hph q hp
      refine ⟨m :: P, h.pushPartial hl ?_ ?_ ?_ ?_ ?_ ?_ ?_ ?_, ⟨?_, ?_, ?_, ?_, ?_, ?_, ?_, ?_, ?_, ?_, ?_⟩, ?_, ?_⟩
      all_goals simp only [SC.setPrev, SC.upd, hp, if_true]
      · have : m ≠ q := Ne.symm hqm
        simp [this]
      · intro i hi
        by_cases e : i = q
        · subst e; simp
        · have : ¬ q = i := fun e' => e e'.symm
          simp [hi, e, this]
      · intro i hi
        by_cases e : i = q
        · subst e; simp [hi]
        · simp [hi, e]
      · intro a
        by_cases e : a = q
        · subst e; exact ⟨(c.slabs a).next, some m, by simp [hqm]⟩
        · by_cases e' : a = m
          · subst e'; exact ⟨some q, none, by simp [e]⟩
          · exact ⟨(c.slabs a).next, (c.slabs a).prev, by simp [e, e']⟩
      · intro a ha
        have h1 : a ≠ m := fun e => by rw [e, hl] at ha; exact absurd ha (by simp)
        have h2 : a ≠ q := fun e => by
          have hq : q ∈ P := List.mem_of_mem_head? (by rw [← h.ph, hp]; simp)
          rw [e, (h.pm q).mp hq] at ha; exact absurd ha (by simp)
        simp [h1, h2]
  · rw [if_neg (by simp; omega), Loc.set_self hl]
    exact ⟨P, h, ⟨fun a => ⟨_, _, rfl⟩, fun _ _ => rfl, rfl, rfl, rfl, rfl, rfl, rfl, rfl, rfl, rfl⟩, rfl, rfl⟩

theorem unlinkPartial_spec {c : SC} {P E F : List Nat} {loc : Nat → Loc} {m : Nat} (h : Lists g c P E F loc)
    (hl : loc m = .part) :
    ∃ P', Lists g (c.unlinkPartial m) P' E F (Loc.set loc m .out) ∧ LinkOnly loc c (c.unlinkPartial m) ∧
      (c.unlinkPartial m).emptyTotal = c.emptyTotal ∧ (c.unlinkPartial m).slabAllocated = c.slabAllocated := by
  have hm : m ∈ P := (h.pm m).mpr hl
  obtain ⟨l1, l2, hP, hn, hp⟩ := h.pd.split hm
  simp only [Option.or_none] at hp
  have hnd := h.pn
  rw [hP] at hnd
  have h12 : ∀ x, x ∈ l1 → x ∈ l2 → False := fun x hx hy => by
    rw [List.nodup_append] at hnd
    exact hnd.2.2 x hx x (by simp [hy]) rfl
  have hm1 : m ∉ l1 := fun hx => by
    rw [List.nodup_append] at hnd
    exact hnd.2.2 m hx m (by simp) rfl
  have hm2 : m ∉ l2 := fun hx => by
    rw [List.nodup_append] at hnd
    exact (List.nodup_cons.mp hnd.2.1).1 hx
  have hnp : ∀ x, loc x = .fresh → x ∉ P := fun x hx hxp => by
    have := (h.pm x).mp hxp; rw [hx] at this; exact absurd this (by simp)
  have hhd : ∀ x, l2.head? = some x → x ∈ l2 := fun x hx => List.mem_of_mem_head? (by rw [hx]; simp)
  have htl : ∀ x, l1.getLast? = some x → x ∈ l1 := fun x hx => List.mem_of_getLast? hx
  unfold SC.unlinkPartial
  cases hpv : (c.slabs m).prev with
  | none =>
    have hl1 : l1 = [] := by rw [hpv] at hp; exact List.getLast?_eq_none_iff.mp hp.symm
    subst hl1
    cases hnx : (c.slabs m).next with
    | none =>
      have hl2 : l2 = [] := by rw [hnx] at hn; exact List.head?_eq_none_iff.mp hn.symm
      subst hl2
      refine ⟨[] ++ [], h.removePartial hP ?_ ?_ ?_ ?_ ?_ ?_ ?_, ⟨?_, ?_, ?_, ?_, ?_, ?_, ?_, ?_, ?_, ?_, ?_⟩, ?_, ?_⟩
      all_goals simp only [SC.setPrev, SC.upd, hnx]
      · simp
      · intro i hi; simp [hi]
      · intro i hi; simp [hi]
      · intro a
        by_cases e : a = m
        · subst e; exact ⟨(c.slabs a).next, none, by simp [hnx]⟩
        · exact ⟨(c.slabs a).next, (c.slabs a).prev, by simp [e]⟩
      · intro a ha
        have : a ≠ m := fun e => by rw [e, hl] at ha; exact absurd ha (by simp)
        simp [this]
    | some q =>
      have hq : q ∈ l2 := hhd q (by rw [← hn, hnx])
      have hqm : q ≠ m := fun e => hm2 (e ▸ hq)
      have hmq : m ≠ q := Ne.symm hqm
      refine ⟨[] ++ l2, h.removePartial hP ?_ ?_ ?_ ?_ ?_ ?_ ?_, ⟨?_, ?_, ?_, ?_, ?_, ?_, ?_, ?_, ?_, ?_, ?_⟩, ?_, ?_⟩
      all_goals simp only [SC.setPrev, SC.upd, hpv, hnx]
      · simp [← hn, hnx]
      · intro i hi
        rw [← hn, hnx]
        by_cases e : i = q
        · subst e; simp [hi]
        · have : ¬ q = i := fun e' => e e'.symm
          simp [hi, e, this]
      · intro i hi
        by_cases e : i = q
        · subst e; simp [hi]
        · simp [hi, e]
      · intro a
        by_cases e : a = q
        · subst e; exact ⟨(c.slabs a).next, none, by simp [hqm]⟩
        · by_cases e' : a = m
          · subst e'; exact ⟨(c.slabs a).next, none, by simp [e]⟩
          · exact ⟨(c.slabs a).next, (c.slabs a).prev, by simp [e, e']⟩
      · intro a ha
        have h1 : a ≠ m := fun e => by rw [e, hl] at ha; exact absurd ha (by simp)
        have h2 : a ≠ q := fun e => hnp a ha (by rw [hP, e]; simp [hq])
        simp [h1, h2]
  | some q' =>
    have hq' : q' ∈ l1 := htl q' (by rw [← hp, hpv])
    have hqm' : q' ≠ m := fun e => hm1 (e ▸ hq')
    have hmq' : m ≠ q' := Ne.symm hqm'
    have hlast : l1.getLast? = some q' := by rw [← hp, hpv]
    have hhead : c.partialHead = l1.head? := by
      rw [h.ph, hP]
      cases l1 with
      | nil => simp at hq'
      | cons x xs => rfl
    have hhead' : (l1 ++ l2).head? = l1.head? := by
      cases l1 with
      | nil => simp at hq'
      | cons x xs => rfl
    cases hnx : (c.slabs m).next with
    | none =>
      have hl2 : l2 = [] := by rw [hnx] at hn; exact List.head?_eq_none_iff.mp hn.symm
      subst hl2
      refine ⟨l1 ++ [], h.removePartial hP ?_ ?_ ?_ ?_ ?_ ?_ ?_, ⟨?_, ?_, ?_, ?_, ?_, ?_, ?_, ?_, ?_, ?_, ?_⟩, ?_, ?_⟩
      all_goals simp only [SC.setPrev, SC.upd, hnx, hmq', if_false]
      · rw [hhead', hhead]
      · intro i hi
        by_cases e : i = q'
        · subst e; simp [hi]
        · simp [hi, e]
      · intro i hi
        rw [hlast]
        by_cases e : i = q'
        · subst e; simp [hi]
        · have : ¬ q' = i := fun e' => e e'.symm
          simp [hi, e, this]
      · intro a
        by_cases e : a = q'
        · subst e; exact ⟨none, (c.slabs a).prev, by simp [hqm']⟩
        · by_cases e' : a = m
          · subst e'; exact ⟨(c.slabs a).next, none, by simp [hnx]⟩
          · exact ⟨(c.slabs a).next, (c.slabs a).prev, by simp [e, e']⟩
      · intro a ha
        have h1 : a ≠ m := fun e => by rw [e, hl] at ha; exact absurd ha (by simp)
        have h2 : a ≠ q' := fun e => hnp a ha (by rw [hP, e]; simp [hq'])
        simp [h1, h2]
    | some q =>
      have hq : q ∈ l2 := hhd q (by rw [← hn, hnx])
      have hqm : q ≠ m := fun e => hm2 (e ▸ hq)
      have hqq : q ≠ q' := fun e => h12 q (e ▸ hq') hq
      have hmq : m ≠ q := Ne.symm hqm
      refine ⟨l1 ++ l2, h.removePartial hP ?_ ?_ ?_ ?_ ?_ ?_ ?_, ⟨?_, ?_, ?_, ?_, ?_, ?_, ?_, ?_, ?_, ?_, ?_⟩, ?_, ?_⟩
      all_goals simp only [SC.setPrev, SC.upd, hpv, hnx, hmq', if_false]
      · rw [hhead', hhead]
      · intro i hi
        rw [← hn, hnx, hlast]
        by_cases e : i = q
        · subst e; simp [hi]
        · have : ¬ q = i := fun e' => e e'.symm
          by_cases e' : i = q'
          · subst e'; simp [hi, e, this]
          · simp [hi, e, e', this]
      · intro i hi
        rw [hlast, ← hn, hnx]
        by_cases e : i = q'
        · subst e
          have : ¬ i = q := fun e' => hqq e'.symm
          simp [hi, this]
        · have : ¬ q' = i := fun e' => e e'.symm
          by_cases e' : i = q
          · subst e'; simp [hi, e, this]
          · simp [hi, e, e', this]
      · intro a
        by_cases e : a = q
        · subst e; exact ⟨(c.slabs a).next, some q', by simp [hqm, hqq]⟩
        · by_cases e' : a = q'
          · subst e'; exact ⟨some q, (c.slabs a).prev, by simp [hqm', e]⟩
          · by_cases e'' : a = m
            · subst e''; exact ⟨(c.slabs a).next, none, by simp [e, hnx]⟩
            · exact ⟨(c.slabs a).next, (c.slabs a).prev, by simp [e, e', e'']⟩
      · intro a ha
        have h1 : a ≠ m := fun e => by rw [e, hl] at ha; exact absurd ha (by simp)
        have h2 : a ≠ q' := fun e => hnp a ha (by rw [hP, e]; simp [hq'])
        have h3 : a ≠ q := fun e => hnp a ha (by rw [hP, e]; simp [hq])
        simp [h1, h2, h3]

/-! ### Memory of the class when a slab leaves or is purged -/

/-- Range of slab `m`. -/
theorem slab_pages (hb : BaseOk g base) (hcls : cls < nClasses g) (m x : Nat) :
    inPages (slabAddr base (g.slabSize cls) m) (g.slabSize cls) (x / PAGE) ↔
      inRange (slabAddr base (g.slabSize cls) m) (g.slabSize cls) x :=
  inPages_addr (slab_mod hb hcls m) (classGeo g hcls).slab_mod

theorem scvm_purge {loc : Nat → Loc} {vm : Vm} {m : Nat} (hvm : SCVm g base cls loc vm) :
    SCVm g base cls loc (vm.zeroPages (slabAddr base (g.slabSize cls) m) (g.slabSize cls)) where
  rw := hvm.rw
  off := fun i x hi hn hx => by
    have := hvm.off i x hi hn hx
    refine ⟨this.1, ?_⟩
    simp only [Vm.zeroPages]
    split
    · rfl
    · exact this.2

theorem scvm_close {loc loc' : Nat → Loc} {vm : Vm} {m : Nat} (hb : BaseOk g base) (hcls : cls < nClasses g)
    (hvm : SCVm g base cls loc vm) (hl : ∀ i, i ≠ m → (loc' i).isRw = (loc i).isRw) (hm : (loc' m).isRw = false) :
    SCVm g base cls loc' ((vm.setProt (slabAddr base (g.slabSize cls) m) (g.slabSize cls) .none).zeroPages
      (slabAddr base (g.slabSize cls) m) (g.slabSize cls)) where
  rw := fun i x hi h0 hx => by
    have him : i ≠ m := by rintro rfl; rw [hm] at hi; exact absurd hi (by simp)
    simp only [Vm.zeroPages, Vm.setProt]
    rw [if_neg]
    · exact hvm.rw i x (by rw [← hl i him]; exact hi) h0 hx
    · intro hp
      exact him (slab_disjoint hcls hx ((slab_pages hb hcls m x).mp hp))
  off := fun i x hi hn hx => by
    simp only [Vm.zeroPages, Vm.setProt]
    by_cases hp : inPages (slabAddr base (g.slabSize cls) m) (g.slabSize cls) (x / PAGE)
    · simp [hp]
    · rw [if_neg hp, if_neg hp]
      have him : i ≠ m := by rintro rfl; exact hp ((slab_pages hb hcls i x).mpr hx)
      exact hvm.off i x hi (by rw [← hl i him]; exact hn) hx

/-! ### Releasing a slot -/

/-- What releasing slot `(m, k)` may do. `r`: the slab that was returned to the system, if any. -/
structure ReleaseOk (g : Cfg) (base cls : Nat) (ch : Choice) (c c' : SC) (vm vm' : Vm) (e e' : Errno) (loc loc' : Nat → Loc)
    (ql : Nat → Nat → QLoc) (m k : Nat) (r : Bool) : Prop where
  inv : ∃ P E F, SCInv g base cls c' P E F loc' ql
  scvm : SCVm g base cls loc' vm'
  used : ∀ a b, c'.used a b = (c.used a b && !(decide (a = m) && decide (b = k)))
  quar : ∀ a b, c'.quar a b = c.quar a b
  canary : ∀ a, (c'.slabs a).canary = (c.slabs a).canary
  qrand : c'.qrand = c.qrand
  qqueue : c'.qqueue = c.qqueue
  qidx : c'.qidx = c.qidx
  nmalloc : c'.nmalloc = c.nmalloc
  ndalloc : c'.ndalloc = c.ndalloc
  allocated : c'.allocated = c.allocated
  isRw : ∀ i, (loc' i).isRw = ((loc i).isRw && !(r && decide (i = m)))
  fresh : ∀ i, loc' i = .fresh ↔ loc i = .fresh
  slabAllocated : c'.slabAllocated = if g.stats = true ∧ r = true then sub64 c.slabAllocated (g.slabSize cls) else c.slabAllocated
  emptyTotal : c'.emptyTotal ≤ c.emptyTotal ∨ c'.emptyTotal ≤ g.maxEmptySlabsTotal ∨ ch.sys 0 = .enomem
  mem : ∀ x, vm'.mem x = vm.mem x ∨ (vm'.mem x = 0#8 ∧ (∀ b, c'.used m b = false) ∧
    inRange (slabAddr base (g.slabSize cls) m) (g.slabSize cls) x)
  prot : ∀ pg, vm'.prot pg = if r = true ∧ inPages (slabAddr base (g.slabSize cls) m) (g.slabSize cls) pg then .none else vm.prot pg
  empty : r = true → ∀ b, c'.used m b = false
  errno : e' = e ∨ (r = true ∧ e' = ch.label 0 e)

theorem releaseSlot_spec {c : SC} {vm : Vm} {e : Errno} {P E F : List Nat} {loc : Nat → Loc} {ql : Nat → Nat → QLoc}
    {m k : Nat} {ch : Choice} (hv : g.Valid) (hq0 : 1 ≤ g.freeSlabsQ) (hb : BaseOk g base) (hcls : cls < nClasses g)
    (h : SCInv g base cls c P E F loc ql) (hvm : SCVm g base cls loc vm) (hu : c.used m k = true) (hqn : ql m k = .none) :
    match releaseSlot g base cls ch c vm e m k with
    | .ok (c', vm', e') => ∃ loc' r, ReleaseOk g base cls ch c c' vm vm' e e' loc loc' ql m k r
    | .fatal _ => ∃ k, ch.sys k = .other
    | _ => False := by
  have G := classGeo g hcls
  have hk := h.bits.used_lt hu
  have hcl := count_lt h.bits m
  have hs16 : g.slots cls < 65536 := by have := G.slots_le; omega
  have hcpos : 0 < (c.slabs m).count := by
    rw [h.bits.cnt m]
    rcases Nat.eq_zero_or_pos (bitCount (c.slabs m).bitmap (g.slots cls)) with h0 | h0
    · have := (bitCount_zero_iff _ _).mp h0 k hk
      unfold SC.used at hu
      rw [this] at hu; exact absurd hu (by simp)
    · exact h0
  have hcok := h.cntOk m
  have hloc : (loc m = .out ∧ (c.slabs m).count = g.slots cls) ∨ (loc m = .part ∧ (c.slabs m).count < g.slots cls) := by
    cases hlm : loc m with
    | fresh => rw [hlm] at hcok; have : (c.slabs m).count = 0 := hcok; omega
    | out => rw [hlm] at hcok; exact Or.inl ⟨rfl, hcok⟩
    | part => rw [hlm] at hcok; exact Or.inr ⟨rfl, hcok.2⟩
    | empty => rw [hlm] at hcok; have : (c.slabs m).count = 0 := hcok; omega
    | free => rw [hlm] at hcok; have : (c.slabs m).count = 0 := hcok; omega
    | quar j => rw [hlm] at hcok; have : (c.slabs m).count = 0 := hcok; omega
  have hrwm : (loc m).isRw = true := by rcases hloc with ⟨e, _⟩ | ⟨e, _⟩ <;> rw [e] <;> rfl
  have hnf : loc m ≠ .fresh := by rcases hloc with ⟨e, _⟩ | ⟨e, _⟩ <;> rw [e] <;> simp
  obtain ⟨P1, hL1, hO1, het1, hsa1⟩ := linkPartial_spec h.lists hloc
  have hfr1 : ∀ (v : Loc), v ≠ .fresh → ∀ i, Loc.set loc m v i = .fresh ↔ loc i = .fresh := fun v hv i => by
    by_cases ei : i = m
    · subst ei; simp [hv, hnf]
    · rw [Loc.set_ne ei]
  unfold releaseSlot
  generalize c.linkPartial (g.slots cls) m = c1 at hL1 hO1 het1 hsa1
  have hc1 : (c1.slabs m).count = (c.slabs m).count := by obtain ⟨n, p, e⟩ := hO1.slabs m; rw [e]
  have hcs := clearUsed_slab c1 m k (by omega) (by omega)
  have hc2 : c1.clearUsed m k = { c1 with slabs := (c1.clearUsed m k).slabs } := rfl
  have hL2 : Lists g (c1.clearUsed m k) P1 E F (Loc.set loc m .part) := by
    refine hL1.congr ⟨?_, ?_, rfl, rfl, rfl, rfl, rfl⟩
    · intro i
      by_cases ei : i = m
      · subst ei; rw [hcs]
      · rw [clearUsed_other c1 k ei]
    · intro i
      by_cases ei : i = m
      · subst ei; rw [hcs]
      · rw [clearUsed_other c1 k ei]
  have hcnt2 : ((c1.clearUsed m k).slabs m).count = (c.slabs m).count - 1 := by rw [hcs, hc1]
  have hmk : ∀ {c2 : SC} {loc1 : Nat → Loc}, LinkOnly loc1 (c1.clearUsed m k) c2 → (∀ a, loc a = .fresh → loc1 a = .fresh) →
      Released c c2 loc m k := fun h2 hl => Released.mk' hO1 h2 hl hcpos (by omega)
  have het2 : (c1.clearUsed m k).emptyTotal = c.emptyTotal := by rw [hc2]; exact het1
  have hsa2 : (c1.clearUsed m k).slabAllocated = c.slabAllocated := by rw [hc2]; exact hsa1
  have hother : ∀ (v : Loc) i, i ≠ m → CountOk (g.slots cls) (Loc.set loc m v i) (c.slabs i).count := fun v i hi => by
    rw [Loc.set_ne hi]; exact h.cntOk i
  generalize c1.clearUsed m k = c2 at hc2 hL2 hcnt2 hmk het2 hsa2
  unfold SC.isFreeSlab
  simp only [hcnt2]
  by_cases h0 : (c.slabs m).count - 1 = 0
  · -- the slab is empty now
    simp only [h0, beq_self_eq_true, if_true]
    obtain ⟨P3, hL3, hO3, het3, hsa3⟩ := unlinkPartial_spec hL2 (Loc.set_same _ _ _)
    rw [show Loc.set (Loc.set loc m .part) m .out = Loc.set loc m .out by funext i; unfold Loc.set; split <;> rfl] at hL3
    have hfp : ∀ a, loc a = .fresh → Loc.set loc m .part a = .fresh := fun a => (hfr1 .part (by simp) a).mpr
    unfold retireSlab
    simp only
    generalize hc3 : c2.unlinkPartial m = c3 at hL3 hO3 het3 hsa3
    have hE3 : c3.emptyTotal = E.length * g.slabSize cls := by rw [het3, het2]; exact h.etot
    have hEle := h.etot_le
    have hadd : add64 c3.emptyTotal (g.slabSize cls) = (E.length + 1) * g.slabSize cls := by
      rw [hE3, Nat.add_mul, Nat.one_mul]
      have := hv.classRegionMax
      have := G.slab_le
      exact add64_of_lt (by omega)
    have hempty : ∀ {c4 : SC}, Released c c4 loc m k → ∀ b, c4.used m b = false := fun {c4} hr b => by
      obtain ⟨n, p, e'⟩ := hr.self
      rw [hr.used]
      by_cases hbb : b < g.slots cls
      · have hclr := bitCount_clear hk hu
        have h1 : bitCount ((c.slabs m).bitmap.clear k) (g.slots cls) = 0 := by rw [h.bits.cnt m] at h0; omega
        have := (bitCount_zero_iff _ _).mp h1 b hbb
        rw [Bitmap.bit_clear] at this
        unfold SC.used
        simp only [decide_true, Bool.true_and]
        rw [Bool.and_comm]; exact this
      · rw [h.bits.hi m b (by omega)]; rfl
    -- keeping the slab in the cache
    have hcache : ∀ vm', SCVm g base cls loc vm' → vm'.prot = vm.prot → (∀ x, vm'.mem x = vm.mem x ∨ (vm'.mem x = 0#8 ∧
          inRange (slabAddr base (g.slabSize cls) m) (g.slabSize cls) x)) →
        ((E.length + 1) * g.slabSize cls ≤ g.maxEmptySlabsTotal ∨ ch.sys 0 = .enomem) →
        ReleaseOk g base cls ch c (c3.cacheSlab g cls m) vm vm' e e loc (Loc.set loc m .empty) ql m k false := by
      intro vm' hvm' hprot hmem hlim
      have hO4 : LinkOnly (Loc.set loc m .part) c3 (c3.cacheSlab g cls m) := by
        refine ⟨?_, ?_, rfl, rfl, rfl, rfl, rfl, rfl, rfl, rfl, rfl⟩
        · intro a
          unfold SC.cacheSlab SC.upd
          by_cases ea : a = m
          · subst ea; exact ⟨c3.emptyHead, (c3.slabs a).prev, by simp⟩
          · exact ⟨(c3.slabs a).next, (c3.slabs a).prev, by simp [ea]⟩
        · intro a ha
          have : a ≠ m := by rintro rfl; simp at ha
          unfold SC.cacheSlab SC.upd
          simp [this]
      have hR := hmk (hO3.trans hO4 (fun _ ha => ha)) hfp
      have hL4 : Lists g (c3.cacheSlab g cls m) P3 (m :: E) F (Loc.set loc m .empty) := by
        have := Lists.pushEmpty (c' := c3.cacheSlab g cls m) hL3 (Loc.set_same _ _ _) rfl (by simp [SC.cacheSlab, SC.upd])
          (fun i hi => by simp [SC.cacheSlab, SC.upd, hi]) rfl rfl rfl rfl
        rwa [show Loc.set (Loc.set loc m .out) m .empty = Loc.set loc m .empty by funext i; unfold Loc.set; split <;> rfl] at this
      have het4 : (c3.cacheSlab g cls m).emptyTotal = (E.length + 1) * g.slabSize cls := hadd
      have hrw : ∀ i, (Loc.set loc m .empty i).isRw = (loc i).isRw := fun i => by
        by_cases ei : i = m
        · subst ei; rw [Loc.set_same, hrwm]; rfl
        · rw [Loc.set_ne ei]
      refine ⟨⟨P3, m :: E, F, h.released hu hqn hR hL4 (by rw [het4]; simp) (hfr1 .empty (by simp)) (hother .empty) ?_⟩,
        hvm'.congr hrw rfl (fun _ _ => rfl), hR.used, hR.quar, hR.canary, hR.qr, hR.qq, hR.qi, hR.nm, hR.nd, hR.al, ?_,
        hfr1 .empty (by simp), ?_, ?_, ?_, ?_, ?_, Or.inl rfl⟩
      · rw [Loc.set_same]; exact h0
      · intro i; rw [hrw]; simp
      · show c3.slabAllocated = _
        rw [hsa3, hsa2]; simp
      · rw [het4]
        rcases hlim with hl | hl
        · exact Or.inr (Or.inl hl)
        · exact Or.inr (Or.inr hl)
      · intro x
        rcases hmem x with hx | ⟨hx, hx2⟩
        · exact Or.inl hx
        · exact Or.inr ⟨hx, hempty hR, hx2⟩
      · intro pg; rw [hprot]; simp
      · intro hh; exact absurd hh (by simp)
    by_cases hgt : add64 c3.emptyTotal (g.slabSize cls) > g.maxEmptySlabsTotal
    · rw [if_pos hgt]
      unfold memoryMapFixed
      rw [if_neg (by have := slab_mod hb hcls m; have := G.slab_ge; omega)]
      cases hs0 : ch.sys 0 with
      | other => exact ⟨0, hs0⟩
      | enomem =>
        simp only [Res.bind_ok, if_true]
        unfold memoryPurge
        rw [if_neg (by have := slab_mod hb hcls m; omega)]
        cases hs1 : ch.sys 1 with
        | other => exact ⟨1, hs1⟩
        | enomem => exact ⟨_, false, hcache vm hvm rfl (fun x => Or.inl rfl) (Or.inr hs0)⟩
        | ok =>
          refine ⟨_, false, hcache _ (scvm_purge hvm) rfl (fun x => ?_) (Or.inr hs0)⟩
          simp only [Vm.zeroPages]
          by_cases hp : inPages (slabAddr base (g.slabSize cls) m) (g.slabSize cls) (x / PAGE)
          · right; exact ⟨by simp [hp], (slab_pages hb hcls m x).mp hp⟩
          · left; simp [hp]
      | ok =>
        simp only [Res.bind_ok, Bool.false_eq_true, if_false]
        have hL3' : Lists g (c3.statsSlabDealloc g (g.slabSize cls)) P3 E F (Loc.set loc m .out) := by
          rw [SC.statsSlabDealloc_eq]
          exact hL3.congr ⟨fun _ => rfl, fun _ => rfl, rfl, rfl, rfl, rfl, rfl⟩
        obtain ⟨c4, F4, loc4, j, hen, hL4, hl4m, hl4, sl, fh, ft, fq, hc4, hsl⟩ :=
          Lists.enqueue (draw := ch.u16 2) hL3' (Loc.set_same _ _ _) hq0
        rw [hen]
        simp only [Res.bind_ok]
        rw [SC.statsSlabDealloc_eq] at hc4 hsl
        have hl4' : ∀ i, i ≠ m → loc4 i = loc i ∨ (loc i = .quar j ∧ loc4 i = .free) := fun i hi => by
          have := hl4 i hi; rwa [Loc.set_ne hi] at this
        have hO4 : LinkOnly (Loc.set loc m .part) c3 c4 := by
          refine ⟨?_, ?_, ?_, ?_, ?_, ?_, ?_, ?_, ?_, ?_, ?_⟩
          · intro a
            obtain ⟨n, e', _⟩ := hsl a
            exact ⟨n, (c3.slabs a).prev, by rw [hc4]; exact e'⟩
          · intro a ha
            have hne : a ≠ m := by rintro rfl; simp at ha
            obtain ⟨n, e', hn⟩ := hsl a
            rw [hc4]
            show sl a = _
            rw [e', hn (by rw [Loc.set_ne hne] at ha ⊢; exact ha)]
          all_goals rw [hc4]
        have hR := hmk (hO3.trans hO4 (fun _ ha => ha)) hfp
        have hfr4 : ∀ i, loc4 i = .fresh ↔ loc i = .fresh := fun i => by
          by_cases ei : i = m
          · subst ei; rw [hl4m]; simp [hnf]
          · rcases hl4' i ei with e' | ⟨e', e''⟩
            · rw [e']
            · rw [e', e'']; simp
        have hrw4 : ∀ i, i ≠ m → (loc4 i).isRw = (loc i).isRw := fun i ei => by
          rcases hl4' i ei with e' | ⟨e', e''⟩
          · rw [e']
          · rw [e', e'']; rfl
        have hrw4m : (loc4 m).isRw = false := by rw [hl4m]; rfl
        refine ⟨loc4, true, ⟨P3, E, F4, h.released hu hqn hR hL4 ?_ hfr4 ?_ ?_⟩, scvm_close hb hcls hvm hrw4 hrw4m,
          hR.used, hR.quar, hR.canary, hR.qr, hR.qq, hR.qi, hR.nm, hR.nd, hR.al, ?_, hfr4, ?_, ?_, ?_, ?_, fun _ => hempty hR,
          Or.inr ⟨rfl, rfl⟩⟩
        · rw [hc4]; exact hE3
        · intro i hi
          rcases hl4' i hi with e' | ⟨e', e''⟩
          · rw [e']; exact h.cntOk i
          · have := h.cntOk i; rw [e'] at this; rw [e'']; exact this
        · rw [hl4m]; exact h0
        · intro i
          by_cases ei : i = m
          · subst ei; rw [hrw4m]; simp
          · rw [hrw4 i ei]; simp [ei]
        · rw [hc4]
          simp only [hsa3, hsa2, and_true]
        · left; rw [hc4]; show c3.emptyTotal ≤ _; rw [het3, het2]
        · intro x
          simp only [Vm.zeroPages]
          by_cases hp : inPages (slabAddr base (g.slabSize cls) m) (g.slabSize cls) (x / PAGE)
          · right; exact ⟨by simp [hp], hempty hR, (slab_pages hb hcls m x).mp hp⟩
          · left; simp [hp, Vm.setProt]
        · intro pg
          simp [Vm.zeroPages, Vm.setProt]
    · rw [if_neg hgt]
      exact ⟨_, false, hcache vm hvm rfl (fun x => Or.inl rfl) (Or.inl (by rw [hadd] at hgt; omega))⟩
  · rw [if_neg (by simpa using h0)]
    have hR := hmk (c2 := c2) (loc1 := loc) ⟨fun a => ⟨_, _, rfl⟩, fun _ _ => rfl, rfl, rfl, rfl, rfl, rfl, rfl, rfl, rfl, rfl⟩ (fun _ ha => ha)
    have hrw : ∀ i, (Loc.set loc m .part i).isRw = (loc i).isRw := fun i => by
      by_cases ei : i = m
      · subst ei; rw [Loc.set_same, hrwm]; rfl
      · rw [Loc.set_ne ei]
    refine ⟨Loc.set loc m .part, false, ⟨P1, E, F, h.released hu hqn hR hL2 (by rw [het2]; exact h.etot) (hfr1 .part (by simp))
      (hother .part) ?_⟩, hvm.congr hrw rfl (fun _ _ => rfl), hR.used, hR.quar, hR.canary, hR.qr, hR.qq, hR.qi, hR.nm, hR.nd, hR.al,
      ?_, hfr1 .part (by simp), ?_, ?_, fun x => Or.inl rfl, ?_, ?_, Or.inl rfl⟩
    · rw [Loc.set_same]
      exact ⟨by omega, by omega⟩
    · intro i; rw [hrw]; simp
    · rw [hsa2]; simp
    · left; rw [het2]
    · intro pg; simp
    · intro hh; exact absurd hh (by simp)

end
end HM
