import Verif.Props.Capacity

namespace HM

variable {g : Cfg} {ro : Ro} {ar : Nat → Nat} {calm : Bool} {D : Client} {h : List Ev} {s : Sys}

/-! # How long freed memory is held back -/

/-! ## Small blocks -/

/-- The length of the quarantine queue of a class: the configured length is for the largest class, and doubles each time the
size halves. -/
def Cfg.queueLength (g : Cfg) (c : Nat) : Nat := g.slabQQueue * (g.maxSlab / 2 ^ Nat.log2 (g.slotSize c))

/-- The number of slots the random quarantine of a class holds. -/
def Cfg.randomLength (g : Cfg) (c : Nat) : Nat := g.slabQRandom * (g.maxSlab / 2 ^ Nat.log2 (g.slotSize c))

/-- The event frees a block in the area of class `c` of arena `a` (with `free`, `free_sized` or by moving it with
`realloc`). -/
def Ev.frees (ro : Ro) (a c : Nat) (e : Ev) : Bool :=
  match e.released with
  | some q => decide (ro.regionStart a c ≤ q) && decide (q < ro.regionStart a c + ro.g.classRegionSize)
  | none => false

/-- Checked by the kernel over the complete tables. -/
theorem shift_table (g : Cfg) {c : Nat} (h : c < nClasses g) :
    2 ^ quarantineShift g (g.slotSize c) = g.maxSlab / 2 ^ Nat.log2 (g.slotSize c) := by
  unfold nClasses at h
  unfold Cfg.slotSize Cfg.classSize sizeClasses quarantineShift Cfg.maxSlabShift Cfg.maxSlab
  cases he : g.extended
  · rw [he] at h
    simp only [Bool.false_eq_true, if_false] at h ⊢
    revert c
    decide +kernel
  · rw [he] at h
    simp only [if_true] at h ⊢
    revert c
    decide +kernel

theorem lenQ_eq (hv : g.Valid) {c : Nat} (h : c < nClasses g) : lenQ g c = g.queueLength c := by
  unfold lenQ Cfg.queueLength
  rw [(shl_len h hv.slabQQueue).1, shift_table g h]

theorem lenR_eq (hv : g.Valid) {c : Nat} (h : c < nClasses g) : lenR g c = g.randomLength c := by
  unfold lenR Cfg.randomLength
  rw [(shl_len h hv.slabQRandom).1, shift_table g h]

theorem Reach.last {e : Ev} (r : Reach g ro ar calm D (e :: h) s) :
    ∃ s0, Reach g ro ar calm D h s0 ∧ ((∃ a : Act, a.Ok calm ∧ D h s0 a ∧ s0.step ro ar a = .ok (s, e)) ∨ ∃ pg m, e = .foreign pg m) := by
  cases r with
  | step hr ha hd hs => exact ⟨_, hr, Or.inl ⟨_, ha, hd, hs⟩⟩
  | other hr pg pr data hp => exact ⟨_, hr, Or.inr ⟨_, _, rfl⟩⟩

/-- The call behind an event that is a call. -/
theorem Reach.lastCall {t : Nat} {c : Call} {x : Ret} (r : Reach g ro ar calm D (.call t c x :: h) s) :
    ∃ s0 chs, Reach g ro ar calm D h s0 ∧ c.Ok ∧ (∀ n, Env calm (chs n)) ∧ D h s0 (.call t c chs) ∧ s0.call ro ar t c chs = .ok (s, x) := by
  obtain ⟨s0, h1, ⟨a, h2, h3, h4⟩ | ⟨_, _, h2⟩⟩ := r.last
  rotate_left
  · cases h2
  cases a with
  | store => cases h4
  | errno => cases h4
  | call t' c' chs =>
    simp only [Sys.step] at h4
    cases e : s0.call ro ar t' c' chs with
    | ok y => rw [e] at h4; cases h4; exact ⟨s0, chs, h1, h2.1, h2.2, h3, e⟩
    | fatal => rw [e] at h4; cases h4
    | segv => rw [e] at h4; cases h4
    | ub => rw [e] at h4; cases h4
    | hang => rw [e] at h4; cases h4

theorem Fits.live_of_mine (f : Fits ro calm h s w) {t p : Nat} (m : Mine t p (w.lend t)) : (live h p).isSome = true := by
  rw [← f.linked.blk p]
  intro e
  have := (lend_blk (t := t) w p).mpr e
  rw [m.blk] at this
  cases this

theorem Freed.quarantined (hro : RoOk ro) {t p : Nat} {o1 o2 : Option Nat} {w w' : World} (hi : GInv ro w) (F : Freed .seq ro t p o1 o2 w w') :
    Mine t p w ∧ ∀ a c i k, IsSmall ro w.σ p a c i k → ro.g.slotWait c ≤ slotDelay ro.g c (w'.σ.sc a c) (w'.G.ql a c) i k := by
  rcases F with ⟨_, F⟩ | ⟨hs, F⟩
  · refine ⟨F.mine, fun a c i k hs => ?_⟩
    obtain ⟨a', c', i', k', h1, _, _, h2, _⟩ := F.small
    obtain ⟨rfl, rfl, rfl, rfl⟩ := hs.uniq hro hi h1
    exact h2 rfl
  · refine ⟨F.mine, fun a c i k k1 => ?_⟩
    rw [k1.inSlab hro hi] at hs; cases hs

/-- What is known about a released block: it was a block before the call and, if it was small, its slot is quarantined. -/
theorem Reach.released (hg : Good g ar) {e : Ev} {p : Nat} (r : Reach g ro ar calm D (e :: h) s) (he : e.released = some p) :
    ∃ s0 w w', Reach g ro ar calm D h s0 ∧ Fits ro calm h s0 w ∧ Fits ro calm (e :: h) s w' ∧ (live h p).isSome = true ∧
      ∀ a c i k, IsSmall ro w.σ p a c i k → ro.g.slotWait c ≤ slotDelay ro.g c (w'.σ.sc a c) (w'.G.ql a c) i k := by
  obtain ⟨hro, rfl⟩ := r.roOk hg
  cases e with
  | store => cases he
  | errno => cases he
  | foreign => cases he
  | call t c x =>
    obtain ⟨s0, chs, r0, hok, henv, _, hc⟩ := r.lastCall
    obtain ⟨w, w', C, _⟩ := r0.called hg hok henv hc
    refine ⟨s0, w, w', r0, C.pre, C.post, ?_⟩
    have hi := (C.pre.linked.ready t).inv
    cases c with
    | free q =>
      simp only [Ev.released] at he
      by_cases k : q = 0
      · rw [if_pos k] at he; cases he
      · rw [if_neg k] at he; cases he
        obtain ⟨_, ⟨k', _⟩ | ⟨_, _, F⟩⟩ := C.res
        · exact absurd k' k
        · exact ⟨C.pre.live_of_mine (F.quarantined hro hi).1, (F.quarantined hro hi).2⟩
    | freeSized q n =>
      simp only [Ev.released] at he
      by_cases k : q = 0
      · rw [if_pos k] at he; cases he
      · rw [if_neg k] at he; cases he
        obtain ⟨_, ⟨k', _⟩ | ⟨_, F⟩⟩ := C.res
        · exact absurd k' k
        · exact ⟨C.pre.live_of_mine (F.quarantined hro hi).1, (F.quarantined hro hi).2⟩
    | realloc q n =>
      simp only [Ev.released] at he
      obtain ⟨o, rfl, h1⟩ := C.res
      cases e0 : (retPtr o).block with
      | none => rw [e0] at he; cases he
      | some y =>
        rw [e0] at he
        obtain rfl := block_retPtr e0
        simp only at he
        by_cases k : q = 0 ∨ y = q
        · rw [if_pos k] at he; cases he
        · rw [if_neg k] at he; cases he
          rw [not_or] at k
          rcases h1 with ⟨k', _⟩ | ⟨_, size, _, _, R | ⟨_, _, k', _⟩⟩
          · exact absurd k' k.1
          · exact ⟨C.pre.live_of_mine R.arg, fun a c i k1 k2 => R.delay rfl k.2 a c i k1 k2⟩
          · exact absurd k' k.2
    | _ => cases he

/-- A block that is released from a class lies in the area of the class. -/
theorem Reach.evFrees_le (hg : Good g ar) {e : Ev} (r : Reach g ro ar calm D (e :: h) s) {a c : Nat} (ha : a < g.nArena) (hc : c < nClasses g) :
    evFrees ro e a c ≤ if e.frees ro a c = true then 1 else 0 := by
  obtain ⟨hro, rfl⟩ := r.roOk hg
  unfold evFrees Ev.frees
  cases he : e.released with
  | none => simp
  | some p =>
    simp only
    by_cases k : (a, c) = ro.sizeClassOf p
    · rw [if_pos k]
      obtain ⟨s0, w, w', r0, f, f', hl, _⟩ := r.released hg he
      obtain ⟨i, hi⟩ := Option.isSome_iff_exists.mp hl
      obtain ⟨u, hu, _⟩ := f.linked.usable hi
      rcases hu with ⟨a', c', i', k', h1, _⟩ | ⟨gd, h1⟩
      · have e1 := h1.cls hro f.linked.inv
        rw [e1] at k; cases k
        obtain ⟨q1, q2, _⟩ := h1.lt f.linked.inv
        have : inRange (ro.regionStart a c) ro.g.classRegionSize p := by
          refine classMem_region hc ?_
          rw [h1.2.2.1]
          exact slotAddr_classMem hc q1 q2
        unfold inRange at this
        rw [if_pos (by simp [this])]
      · have e1 := has_not_inSlab hro f.linked.inv h1
        have := sizeClassOf_out hro (p := p) (by have := (f.linked.inv.reg _ h1).hi; simp only at this; omega) e1
        rw [← k] at this
        simp only at this
        omega
    · rw [if_neg k]; exact Nat.zero_le _

theorem Reach.total_frees (hg : Good g ar) {evs : List Ev} (r : Reach g ro ar calm D (evs ++ h) s) {a c : Nat} (ha : a < g.nArena) (hc : c < nClasses g) :
    total (fun e => evFrees ro e a c) evs ≤ evs.countP (Ev.frees ro a c) := by
  induction evs generalizing s with
  | nil => exact Nat.le_refl _
  | cons e evs ih =>
    have h1 := Reach.evFrees_le hg r ha hc
    obtain ⟨s0, r0, _⟩ := Reach.last r
    have h2 := ih r0
    rw [List.countP_cons]
    simp only [total]
    omega

/-- C20. A freed small block is not live again before the number of blocks freed in the same arena and class since then has
reached the length of the queue (plus one if the random quarantine is used as well). -/
theorem c20_delay (hg : Good g ar) {evs : List Ev} {e : Ev} (r : Reach g ro ar calm D (evs ++ e :: h) s) {a c p : Nat} (ha : a < g.nArena) (hc : c < nClasses g)
    (he : e.released = some p) (hp : ro.area a c p) (hl : (live (evs ++ e :: h) p).isSome) :
    g.queueLength c + (if g.slabQRandom = 0 then 0 else 1) ≤ evs.countP (Ev.frees ro a c) := by
  obtain ⟨hro, rfl⟩ := r.roOk hg
  obtain ⟨s1, r1, st⟩ := r.split
  obtain ⟨s0, w, w', r0, f, f', hl0, hq⟩ := r1.released hg he
  obtain ⟨w2, f2, lat, _⟩ := st.fits hro hg.arena f'
  have small : ∀ {h : List Ev} {s : Sys} {w : World}, Fits ro calm h s w → (live h p).isSome = true → ∃ i k, IsSmall ro w.σ p a c i k := by
    intro h s w f hl
    obtain ⟨i, hi⟩ := Option.isSome_iff_exists.mp hl
    obtain ⟨u, hu, _⟩ := f.linked.usable hi
    rcases hu with ⟨a', c', i', k', h1, _⟩ | ⟨gd, h1⟩
    · have e1 := h1.cls hro f.linked.inv
      rw [hro.sizeClassOf ha hc (hro.region_cell ha hc hp)] at e1
      cases e1
      exact ⟨i', k', h1⟩
    · have e1 := has_not_inSlab hro f.linked.inv h1
      rw [hro.cell_slab ha hc (hro.region_cell ha hc hp)] at e1
      cases e1
  obtain ⟨i, k, k1⟩ := small f hl0
  obtain ⟨i', k', k2⟩ := small f2 hl
  have e1 : i' = i ∧ k' = k := by
    have h1 := k1.lt f.linked.inv
    have h2 := k2.lt f2.linked.inv
    exact slotAddr_inj hc h2.2.1 h1.2.1 (k2.2.2.1.symm.trans k1.2.2.1)
  obtain ⟨rfl, rfl⟩ := e1
  have h0 : slotDelay ro.g c (w2.σ.sc a c) (w2.G.ql a c) i' k' = 0 := by
    obtain ⟨P, E, F, I⟩ := f2.linked.inv.cls a c ha hc
    have := k2.2.2.2
    unfold SC.live at this
    rw [Bool.and_eq_true, Bool.not_eq_true'] at this
    have hn : w2.G.ql a c i' k' = .none := by
      by_contra hn
      have := (I.qarr.bit i' k').mpr hn
      simp_all
    unfold slotDelay; rw [hn]
  have h1 := hq a c i' k' k1
  have h2 := lat.delay.slot a c ha hc i' k'
  have h3 := lat.frees a c
  have h4 := Reach.total_frees hg r ha hc
  have h5 : ro.g.slotWait c = ro.g.queueLength c + (if ro.g.slabQRandom = 0 then 0 else 1) := by
    unfold Cfg.slotWait
    rw [lenQ_eq hro.valid hc]
    split <;> rfl
  omega

/-! ## Large blocks -/

/-- The event frees or reallocates a block outside of the region of the small blocks. -/
def Ev.large (ro : Ro) (e : Ev) : Bool :=
  match e.touched with
  | some q => !(decide (ro.slabStart ≤ q) && decide (q < ro.slabEnd))
  | none => false

/-- The kernel has not been told to unmap the page of byte `x`. -/
def Sys.reserved (s : Sys) (x : Nat) : Prop := s.σ.vm.prot (x / 4096) ≠ .unmapped

theorem total_push (evs : List Ev) : total (evPush ro) evs ≤ evs.countP (Ev.large ro) := by
  induction evs with
  | nil => exact Nat.le_refl _
  | cons e evs ih =>
    rw [List.countP_cons]
    simp only [total]
    have : evPush ro e ≤ if e.large ro = true then 1 else 0 := by
      unfold evPush Ev.large
      cases e.touched with
      | none => simp
      | some q =>
        have e : (decide (ro.slabStart ≤ q) && decide (q < ro.slabEnd)) = ro.inSlab q := Bool.and_comm _ _
        show (if ro.inSlab q = true then 0 else 1) ≤ if (!(decide (ro.slabStart ≤ q) && decide (q < ro.slabEnd))) = true then 1 else 0
        rw [e]
        cases ro.inSlab q <;> simp
    omega

/-- C21. A freed large block whose size is below the threshold of the quarantine stays reserved, with a guard page on either
side, and is part of no other block, as long as the number of large blocks that have been freed or reallocated since then is
below the length of the queue (plus one if there is a random quarantine). If the kernel never refuses a request, its bytes
are inaccessible all that time. -/
theorem c21_reserved (hg : Good g ar) (r : Reach g ro ar calm D h s) {t p u y : Nat} {c : Call} {chs : Nat → Choice} {s1 s2 : Sys} {x : Ret} {evs : List Ev}
    (hcf : c = .free p ∨ ∃ n, c = .freeSized p n) (hok : c.Ok) (he : ∀ n, Env calm (chs n)) (hc : s.call ro ar t c chs = .ok (s1, x))
    (hl : (live h p).isSome) (hu : Usable ro s.σ p u) (hlarge : ¬ (ro.slabStart ≤ p ∧ p < ro.slabEnd)) (hskip : u < g.regionQSkip)
    (st : Steps ro ar calm D (.call t c x :: h) s1 evs s2)
    (hn : evs.countP (Ev.large ro) < g.regionQQueue + (if g.regionQRandom = 0 then 0 else 1))
    (h1 : p - 4096 ≤ y) (h2 : y < p + u + 4096) :
    s2.reserved y ∧ (∀ q v, (live (evs ++ .call t c x :: h) q).isSome → Usable ro s2.σ q v → ¬ (q ≤ y ∧ y < q + v + g.canarySize)) ∧
      (calm = true → p ≤ y → y < p + u → ¬ s2.access y) := by
  obtain ⟨hro, rfl⟩ := r.roOk hg
  obtain ⟨w, w', C, _⟩ := r.called hg hok he hc
  obtain ⟨w2, f2, lat, _⟩ := st.fits hro hg.arena C.post
  have hs : ro.inSlab p = false := by
    unfold Ro.inSlab
    rw [Bool.eq_false_iff]
    intro k; apply hlarge
    simpa [and_comm] using k
  have hF : ∃ o1 o2, Freed .seq ro t p o1 o2 (w.lend t) w' := by
    have h0 : p ≠ 0 := by
      rintro rfl
      exact mine_ne_zero (t := 0) hro (C.pre.linked.ready 0).inv (C.pre.linked.mine (t := 0) hl) rfl
    rcases hcf with rfl | ⟨n, rfl⟩
    · obtain ⟨_, ⟨k', _⟩ | ⟨_, _, F⟩⟩ := C.res
      · exact absurd k' h0
      · exact ⟨_, _, F⟩
    · obtain ⟨_, ⟨k', _⟩ | ⟨_, F⟩⟩ := C.res
      · exact absurd k' h0
      · exact ⟨_, _, F⟩
  obtain ⟨o1, o2, ⟨k, _⟩ | ⟨_, F⟩⟩ := hF
  · rw [hs] at k; cases k
  obtain ⟨size, guard, q1, _, q2, _, q3⟩ := F.has
  have q1 : w.σ.rt.Has ⟨p, size, guard⟩ := q1
  have eu : u = size := by
    rw [← C.pre.σ] at hu
    rcases hu.is hro C.pre.linked hl with ⟨a', c', i', k', k1, _⟩ | ⟨gd, k1⟩
    · rw [k1.inSlab hro C.pre.linked.inv] at hs; cases hs
    · have := C.pre.linked.inv.has_unique k1 q1 rfl
      simp only [RegionMeta.mk.injEq] at this
      exact this.2.1
  subst eu
  have ok := C.pre.linked.inv.reg _ q1
  have g1 := ok.gpos
  have g2 := ok.lo
  simp only at g1 g2
  have hrq : ro.g.regionQuarantine = true := by
    unfold Cfg.regionQuarantine
    by_contra k
    simp only [Bool.or_eq_true, decide_eq_true_eq, not_or, Nat.not_lt, Nat.le_zero] at k
    rw [if_pos k.1, k.2] at hn
    omega
  have d1 := q2 rfl hrq hskip (y / PAGE) (inPages_of_inRange (by unfold inRange; omega))
  have d2 := lat.delay.page (y / PAGE)
  have d3 := lat.pushes
  have d4 := total_push (ro := ro) evs
  have d5 : ro.g.regionDelay = ro.g.regionQQueue + (if ro.g.regionQRandom = 0 then 0 else 1) := by
    unfold Cfg.regionDelay; split <;> rfl
  have hq : ∃ i, w2.G.own (y / PAGE) = .qr i ∨ w2.G.own (y / PAGE) = .qq i := by
    have : pageDelay ro.g w2 (y / PAGE) ≠ 0 := by omega
    unfold pageDelay at this
    cases e : w2.G.own (y / PAGE) with
    | qr i => exact ⟨i, .inl rfl⟩
    | qq i => exact ⟨i, .inr rfl⟩
    | _ => rw [e] at this; exact absurd rfl this
  obtain ⟨i, hq⟩ := hq
  refine ⟨?_, fun q v k1 k2 k3 => ?_, fun k1 _ _ => ?_⟩
  · show s2.σ.vm.prot _ ≠ _
    rw [← f2.σ]
    exact f2.linked.inv.mapped _ (by rcases hq with e | e <;> (rw [e]; simp))
  · rw [← f2.σ] at k2
    rcases (k2.is hro f2.linked k1).extent hro f2.linked k3.1 k3.2 with ⟨a', c', i', k', e1, e2⟩ | e1
    · have := e1.own hro f2.linked.inv e2
      rcases hq with e | e <;> (rw [e] at this; cases this)
    · rcases hq with e | e <;> (rw [e] at e1; cases e1)
  · show s2.σ.vm.prot _ ≠ _
    rw [← f2.σ]
    exact f2.linked.inv.qprot (f2.calm.trans k1) _ i hq

/-! ## Slabs without live blocks -/

/-- The number of the slab, within the area of class `c` of arena `a`, that contains the address. -/
def Ro.slabNo (ro : Ro) (a c x : Nat) : Nat := (x - ro.regionStart a c) / ro.g.slabSize c

theorem slabNo_slot {a c i k : Nat} (hc : c < nClasses ro.g) (hk : k < ro.g.slots c) : ro.slabNo a c (slotAddr ro.g (ro.regionStart a c) c i k) = i := by
  have h1 := slot_in_slab (g := ro.g) hc hk
  have h2 := (classGeo ro.g hc).size_ge
  unfold Ro.slabNo
  rw [slotAddr_eq, show ro.regionStart a c + i * ro.g.slabSize c + k * ro.g.slotSize c - ro.regionStart a c = k * ro.g.slotSize c + ro.g.slabSize c * i by
    rw [Nat.mul_comm (ro.g.slabSize c)]; omega]
  rw [Nat.add_mul_div_left _ _ (by omega), Nat.div_eq_of_lt (by omega), Nat.zero_add]

/-- An accessible byte of a class belongs to a slab in use. -/
theorem access_loc (hro : RoOk ro) {L : Nat → Option Info} {w : World} (l : Linked ro L w) {a c x : Nat} (ha : a < ro.g.nArena) (hc : c < nClasses ro.g)
    (hx : ro.area a c x) (hp : w.σ.vm.prot (x / PAGE) = .rw) :
    ro.slabNo a c x < ro.g.metaMax c ∧ (w.G.loc a c (ro.slabNo a c x)).isRw = true ∧ 0 < c ∧
      inRange (slabAddr (ro.regionStart a c) (ro.g.slabSize c) (ro.slabNo a c x)) (ro.g.slabSize c) x := by
  have geo := classGeo ro.g hc
  have hx' := hx
  unfold Ro.area at hx'
  have hin : inRange (slabAddr (ro.regionStart a c) (ro.g.slabSize c) (ro.slabNo a c x)) (ro.g.slabSize c) x := by
    unfold inRange slabAddr Ro.slabNo
    have h1 := Nat.div_add_mod (x - ro.regionStart a c) (ro.g.slabSize c)
    have h2 := Nat.mod_lt (x - ro.regionStart a c) (y := ro.g.slabSize c) (by have := geo.slab_ge; omega)
    rw [Nat.mul_comm] at h1
    omega
  generalize hi : ro.slabNo a c x = i at hin
  by_cases k : i < ro.g.metaMax c
  · have hrw : (w.G.loc a c i).isRw = true := by
      by_contra hn
      have := ((l.inv.clsVm a c ha hc).off i x k (fun hh => hn hh.1) hin).1
      rw [hp] at this; cases this
    have h0 : 0 < c := by
      refine Nat.pos_of_ne_zero fun h0 => ?_
      have := ((l.inv.clsVm a c ha hc).off i x k (fun hh => hh.2 (geo.zero_iff.mp h0)) hin).1
      rw [hp] at this; cases this
    exact ⟨k, hrw, h0, hin⟩
  · exfalso
    have := gap_guarded hro l.inv (x := x) (hro.cell_slab ha hc (hro.region_cell ha hc hx)) fun a' c' ha' hc' hm' => by
      obtain ⟨rfl, rfl⟩ := hro.cell_inj ha hc ha' hc' (hro.region_cell ha hc hx) (hro.region_cell ha' hc' (classMem_region hc' hm'))
      have : ro.g.metaMax c * ro.g.slabSize c ≤ i * ro.g.slabSize c := Nat.mul_le_mul_right _ (by omega)
      unfold ClassMem inRange at hm'
      unfold inRange slabAddr at hin
      omega
    rw [hp] at this; cases this

/-- The accessible slabs of a class: they contain a live block or a quarantined one, or are cached. -/
theorem accessible_slab (hro : RoOk ro) {L : Nat → Option Info} {w : World} (l : Linked ro L w) {a c : Nat} (ha : a < ro.g.nArena) (hc : c < nClasses ro.g) :
    ∃ cached held : List Nat, cached.length * ro.g.slabSize c = (w.σ.sc a c).emptyTotal ∧ cached.Nodup ∧ held.length = lenR ro.g c + lenQ ro.g c ∧
      ∀ x, ro.area a c x → w.σ.vm.prot (x / PAGE) = .rw → 0 < c ∧
        ((∃ p, (L p).isSome = true ∧ ro.area a c p ∧ ro.slabNo a c p = ro.slabNo a c x) ∨ ro.slabNo a c x ∈ cached ∨ ro.slabNo a c x ∈ held) := by
  obtain ⟨P, E, F, I⟩ := l.inv.cls a c ha hc
  have geo := classGeo ro.g hc
  refine ⟨E, (List.range (lenR ro.g c)).map (fun j => ro.slabNo a c ((w.σ.sc a c).qrand j)) ++
    (List.range (lenQ ro.g c)).map (fun j => ro.slabNo a c ((w.σ.sc a c).qqueue j)), I.etot.symm, I.lists.en, by simp, fun x hx hp => ?_⟩
  obtain ⟨k, hrw, h0, hin⟩ := access_loc hro l ha hc hx hp
  generalize hi : ro.slabNo a c x = i at *
  refine ⟨h0, ?_⟩
  by_cases hE : w.G.loc a c i = .empty
  · exact .inr (.inl ((I.lists.em i).mpr hE))
  · have hcnt := I.cntOk i
    have hpos : 0 < ((w.σ.sc a c).slabs i).count := by
      have := geo.slots_pos
      cases e : w.G.loc a c i <;> rw [e] at hcnt hrw <;> simp_all [CountOk, Loc.isRw]
      omega
    rw [I.bits.cnt i] at hpos
    obtain ⟨j, hj, hju⟩ : ∃ j, j < ro.g.slots c ∧ (w.σ.sc a c).used i j = true := by
      by_contra hn
      have : bitCount ((w.σ.sc a c).slabs i).bitmap (ro.g.slots c) = 0 := by
        rw [bitCount_zero_iff]
        intro j hj
        by_contra h0
        rw [Bool.not_eq_false] at h0
        exact hn ⟨j, hj, h0⟩
      omega
    by_cases hq : w.G.ql a c i j = .none
    · left
      have hs : IsSmall ro w.σ (slotAddr ro.g (ro.regionStart a c) c i j) a c i j := by
        refine ⟨ha, hc, rfl, ?_⟩
        unfold SC.live
        rw [hju, Bool.true_and, Bool.not_eq_true']
        by_contra hn
        rw [Bool.not_eq_false] at hn
        exact (I.qarr.bit i j).mp hn hq
      refine ⟨_, ?_, classMem_region hc (slotAddr_classMem hc k hj), slabNo_slot hc hj⟩
      rw [← l.blk, l.inv.blk]
      exact .inl ⟨_, _, _, _, hs⟩
    · right; right
      have h4 := I.notransit i j
      rw [List.mem_append, List.mem_map, List.mem_map]
      cases e : w.G.ql a c i j with
      | none => exact absurd e hq
      | transit => exact absurd e h4
      | rand n =>
        obtain ⟨e1, e2⟩ := I.qarr.r1 _ _ _ e
        exact .inl ⟨n, List.mem_range.mpr e2, by rw [e1]; exact slabNo_slot hc hj⟩
      | queue n =>
        obtain ⟨e1, e2⟩ := I.qarr.q1 _ _ _ e
        exact .inr ⟨n, List.mem_range.mpr e2, by rw [e1]; exact slabNo_slot hc hj⟩

/-- C22, C23. Suppose the kernel never refuses a request. Apart from slabs that contain a live block, the accessible slabs of
a class are: cached empty slabs, whose total size is within the limit (64 KiB, or 128 KiB with extended size classes, h_malloc.c:133, 138), and at most as many slabs as blocks are held in the
quarantine. All other slabs are inaccessible. -/
theorem c22_purged (hg : Good g ar) (r : Reach g ro ar true D h s) {a c : Nat} (ha : a < g.nArena) (hc : c < nClasses g) :
    ∃ cached held : List Nat, cached.length * g.slabSize c ≤ (if g.extended then 131072 else 65536) ∧ held.length = g.randomLength c + g.queueLength c ∧
      ∀ x, ro.area a c x → s.access x →
        (∃ p, (live h p).isSome ∧ ro.area a c p ∧ ro.slabNo a c p = ro.slabNo a c x) ∨ ro.slabNo a c x ∈ cached ∨ ro.slabNo a c x ∈ held := by
  obtain ⟨hro, rfl⟩ := r.roOk hg
  obtain ⟨w, f, _⟩ := r.fits hg
  obtain ⟨E, H, h1, _, h2, h3⟩ := accessible_slab hro f.linked ha hc
  refine ⟨E, H, ?_, by rw [h2, lenR_eq hro.valid hc, lenQ_eq hro.valid hc], fun x k1 k2 => (h3 x k1 (by rw [f.σ]; exact k2)).2⟩
  rw [h1]
  exact f.linked.inv.cache f.calm a c ha hc

/-- A block that becomes live is the one the call returns. -/
theorem live_new {t p : Nat} {c : Call} {x : Ret} (h1 : live h p = none) (h2 : (live (.call t c x :: h) p).isSome = true) : x.block = some p := by
  have gen : ∀ {i : Info} {q : Nat}, (if p = q then some i else live h p).isSome = true → q = p := by
    intro i q h3
    by_contra hn
    rw [if_neg (Ne.symm hn), h1] at h3
    cases h3
  simp only [live] at h2
  cases c with
  | free q =>
    simp only [liveStep] at h2
    by_cases k : p = q
    · rw [if_pos k] at h2; cases h2
    · rw [if_neg k, h1] at h2; cases h2
  | freeSized q n =>
    simp only [liveStep] at h2
    by_cases k : p = q
    · rw [if_pos k] at h2; cases h2
    · rw [if_neg k, h1] at h2; cases h2
  | realloc q n =>
    simp only [liveStep] at h2
    cases e : x.block with
    | none => rw [e] at h2; simp only at h2; rw [h1] at h2; cases h2
    | some y =>
      rw [e] at h2
      simp only at h2
      by_cases k : q = 0
      · rw [if_pos k] at h2; rw [gen h2]
      · rw [if_neg k] at h2
        cases e1 : live h q with
        | none => rw [e1] at h2; simp only at h2; rw [h1] at h2; cases h2
        | some i =>
          rw [e1] at h2
          simp only at h2
          by_cases k2 : p = y
          · rw [k2]
          · rw [if_neg k2] at h2
            by_cases k3 : p = q
            · rw [if_pos k3] at h2; cases h2
            · rw [if_neg k3, h1] at h2; cases h2
  | _ =>
    simp only [liveStep, Call.request] at h2
    first
      | (rw [h1] at h2; cases h2; done)
      | (cases e : x.block with
        | none => rw [e] at h2; simp only at h2; rw [h1] at h2; cases h2
        | some y => rw [e] at h2; simp only at h2; rw [gen h2])

/-- C22. A slab that is inaccessible becomes accessible only by a call that returns a new block in it. -/
theorem c22_opened (hg : Good g ar) (r : Reach g ro ar calm D h s) {t a k x : Nat} {c : Call} {chs : Nat → Choice} {s' : Sys} {y : Ret}
    (hok : c.Ok) (he : ∀ n, Env calm (chs n)) (hcall : s.call ro ar t c chs = .ok (s', y)) (ha : a < g.nArena) (hk : k < nClasses g)
    (hx : ro.area a k x) (h1 : ¬ s.access x) (h2 : s'.access x) :
    ∃ p, y.block = some p ∧ live h p = none ∧ ro.area a k p ∧ ro.slabNo a k p = ro.slabNo a k x := by
  obtain ⟨hro, rfl⟩ := r.roOk hg
  obtain ⟨w, w', C, _⟩ := r.called hg hok he hcall
  unfold Sys.access at h1 h2
  rw [← C.pre.σ] at h1
  rw [← C.post.σ] at h2
  obtain ⟨q1, q2, q3, q4⟩ := access_loc hro C.post.linked ha hk hx h2
  have geo := classGeo ro.g hk
  have hno : ¬ (w.G.loc a k (ro.slabNo a k x)).isRw = true := fun hr =>
    h1 ((C.pre.linked.inv.clsVm a k ha hk).rw _ x hr (fun e => by have := geo.zero_iff.mpr e; omega) q4)
  obtain ⟨j, k1, k2⟩ := (C.opened a k _ q2).resolve_left hno
  have hn0 : ∀ k', k' < ro.g.slots k → w.G.blk (slotAddr ro.g (ro.regionStart a k) k (ro.slabNo a k x) k') = .nobody := by
    intro k' hk'
    by_contra hb
    have := (C.pre.linked.inv.blk_slot hro ha hk q1 hk').mp hb
    exact hno (IsSmall.lt C.pre.linked.inv ⟨ha, hk, rfl, this⟩).2.2
  rcases k2 with k2 | ⟨k2, k3⟩
  · exact absurd (hn0 j k1) k2
  · have hl : live h (slotAddr ro.g (ro.regionStart a k) k (ro.slabNo a k x) j) = none := C.pre.linked.nobody.mp k2
    refine ⟨_, ?_, hl, classMem_region hk (slotAddr_classMem hk q1 k1), slabNo_slot hk k1⟩
    exact live_new hl k3

/-- C23. If the kernel never refuses a request, the slabs of a class that are accessible and contain no live block take up at
most the configured limit, apart from one slab for each block the quarantine holds. -/
theorem c23_cache_bound (hg : Good g ar) (r : Reach g ro ar true D h s) {a c : Nat} (ha : a < g.nArena) (hc : c < nClasses g) (l : List Nat) (hn : l.Nodup)
    (hl : ∀ i ∈ l, (∃ x, ro.area a c x ∧ ro.slabNo a c x = i ∧ s.access x) ∧ ∀ p, (live h p).isSome → ro.area a c p → ro.slabNo a c p ≠ i) :
    l.length * g.slabSize c ≤ (if g.extended then 131072 else 65536) + (g.randomLength c + g.queueLength c) * g.slabSize c := by
  obtain ⟨E, H, h1, h2, h3⟩ := c22_purged hg r ha hc
  have : l.length ≤ (E ++ H).length := by
    refine (List.subperm_of_subset hn fun i hi => ?_).length_le
    obtain ⟨⟨x, k1, rfl, k2⟩, k3⟩ := hl i hi
    rw [List.mem_append]
    rcases h3 x k1 k2 with ⟨p, q1, q2, q3⟩ | k | k
    · exact absurd q3 (k3 p q1 q2)
    · exact .inl k
    · exact .inr k
  rw [List.length_append, h2] at this
  have h4 := Nat.mul_le_mul_right (g.slabSize c) this
  rw [Nat.add_mul] at h4
  omega

/-- C28. `malloc_trim` makes no page accessible, returns 1 exactly if some page became inaccessible, and afterwards, if the
kernel does not refuse anything, only slabs that contain a live or a quarantined block are accessible. -/
theorem c28_trim (hg : Good g ar) (r : Reach g ro ar calm D h s) {t : Nat} {chs : Nat → Choice} {s' : Sys} {x : Ret}
    (he : ∀ n, Env calm (chs n)) (hcall : s.call ro ar t .trim chs = .ok (s', x)) :
    ∃ b, x = .bool b ∧ (∀ y, s'.access y → s.access y) ∧ (b = true ↔ ∃ y, s.access y ∧ ¬ s'.access y) ∧
      (calm = true → ∀ a c, a < g.nArena → c < nClasses g →
        ∃ held : List Nat, held.length = g.randomLength c + g.queueLength c ∧ ∀ y, ro.area a c y → s'.access y →
          (∃ p, (live h p).isSome ∧ ro.area a c p ∧ ro.slabNo a c p = ro.slabNo a c y) ∨ ro.slabNo a c y ∈ held) := by
  obtain ⟨hro, rfl⟩ := r.roOk hg
  obtain ⟨w, w', C, _⟩ := r.called hg (c := .trim) trivial he hcall
  obtain ⟨b, rfl, h1, h2, h3⟩ := C.res
  refine ⟨b, rfl, fun y hy => ?_, ?_, fun hcalm a c ha hc => ?_⟩
  · have := h2.prot (y / PAGE)
    unfold Sys.access at *
    rw [← C.pre.σ]; rw [← C.post.σ] at hy
    have hy : w'.σ.vm.prot (y / PAGE) = .rw := hy
    rcases this with e | e <;> rw [hy] at e
    · exact e.symm
    · cases e
  · rw [h2.res]
    constructor
    · rintro ⟨pg, k1, k2⟩
      refine ⟨pg * PAGE, ?_, ?_⟩
      · unfold Sys.access; rw [← C.pre.σ, Nat.mul_div_cancel _ (by omega)]; exact k1
      · unfold Sys.access; rw [← C.post.σ, Nat.mul_div_cancel _ (by omega)]; exact k2
    · rintro ⟨y, k1, k2⟩
      refine ⟨y / PAGE, ?_, ?_⟩
      · unfold Sys.access at k1; rw [← C.pre.σ] at k1; exact k1
      · unfold Sys.access at k2; rw [← C.post.σ] at k2; exact k2
  · obtain ⟨E, H, k1, _, k2, k3⟩ := accessible_slab hro C.post.linked ha hc
    refine ⟨H, by rw [k2, lenR_eq hro.valid hc, lenQ_eq hro.valid hc], fun y q1 q2 => ?_⟩
    obtain ⟨h0, k⟩ := k3 y q1 (by rw [C.post.σ]; exact q2)
    rcases k with k | k | k
    · exact .inl k
    · exfalso
      have := h3 (C.pre.calm.trans hcalm) a ha c h0 hc
      rw [this, Nat.mul_eq_zero] at k1
      have geo := classGeo ro.g hc
      rcases k1 with e | e
      · rw [List.length_eq_zero_iff.mp e] at k; cases k
      · have := geo.slab_ge; omega
    · exact .inr k

/-! ## Examples -/

/-- The first block of the largest class of `tinyCfg`. -/
abbrev exT : Nat := 0x10000000000 + 36 * 2097152 + 4096

/-- A block that is live again after exactly as many deallocations as C20 demands. -/
example : ∃ evs e h s, Reach tinyCfg tinyRo (fun _ => 0) true anyClient (evs ++ e :: h) s ∧ Ev.released e = some exT ∧ tinyRo.area 0 36 exT ∧
    (live (evs ++ e :: h) exT).isSome ∧ evs.countP (Ev.frees tinyRo 0 36) = 2 ∧ tinyCfg.queueLength 36 + 1 = 2 := by
  obtain ⟨h, s, h1, h2⟩ := tiny_any [.call 0 (.malloc 16376) 0, .call 0 (.malloc 16376) 0, .call 0 (.malloc 16376) 0, .call 0 (.free exT) 0,
      .call 0 (.free (exT + 16384)) 0, .call 0 (.free (exT + 32768)) 0, .call 0 (.malloc 16376) 0]
    (fun h _ => match h with
      | e1 :: e2 :: e3 :: e :: h => decide (e.released = some exT) && (live (e1 :: e2 :: e3 :: e :: h) exT).isSome &&
          decide ([e1, e2, e3].countP (Ev.frees tinyRo 0 36) = 2)
      | _ => false)
    (by decide +kernel)
  rcases h with _ | ⟨e1, _ | ⟨e2, _ | ⟨e3, _ | ⟨e, h⟩⟩⟩⟩ <;> simp only [Bool.false_eq_true] at h2
  simp only [Bool.and_eq_true, decide_eq_true_eq] at h2
  exact ⟨[e1, e2, e3], e, h, s, h1, h2.1.1, by unfold Ro.area; decide +kernel, h2.1.2, h2.2, by decide +kernel⟩

/-- A large block that is freed, and a further large block that is allocated afterwards. -/
example : ∃ h s, Reach (exCfg false false) (exRo false false) (fun t => t % 4) true anyClient h s ∧ (live h exBig).isSome ∧
    Usable (exRo false false) s.σ exBig 229376 ∧ ¬ ((exRo false false).slabStart ≤ exBig ∧ exBig < (exRo false false).slabEnd) ∧ 229376 < (exCfg false false).regionQSkip ∧
    ∃ chs s1, (∀ n, Env true (chs n)) ∧ s.call (exRo false false) (fun t => t % 4) 0 (.free exBig) chs = .ok (s1, .unit) ∧
      ∃ e s2, Steps (exRo false false) (fun t => t % 4) true anyClient (.call 0 (.free exBig) .unit :: h) s1 [e] s2 ∧
        [e].countP (Ev.large (exRo false false)) < (exCfg false false).regionQQueue + 1 := by
  obtain ⟨h, s, h1, h2⟩ := ex_any (stats := false) (sealed := false) (calm := true) [.call 0 (.malloc 200000) exMapAt]
    (fun h s => (live h exBig).isSome && decide (usableB (exRo false false) s.σ exBig = some 229376) &&
      match s.call (exRo false false) (fun t => t % 4) 0 (.free exBig) (fun _ => exAt 0) with
      | .ok (s1, .unit) => match s1.call (exRo false false) (fun t => t % 4) 0 (.malloc 200000) (fun _ => exAt 0x110000000000) with
        | .ok _ => true
        | _ => false
      | _ => false)
    (by decide +kernel)
  simp only [Bool.and_eq_true, decide_eq_true_eq] at h2
  obtain ⟨⟨q1, q2⟩, q3⟩ := h2
  refine ⟨h, s, h1, q1, usableB_usable q2, by decide, by decide, fun _ => exAt 0, ?_⟩
  split at q3
  · rename_i s1 e1
    split at q3
    · rename_i y e2
      refine ⟨s1, fun _ => exAt_env true 0, e1, .call 0 (.malloc 200000) y.2, y.1, ?_, by simp [Ev.large, Ev.touched]⟩
      refine Steps.step (a := .call 0 (.malloc 200000) (fun _ => exAt 0x110000000000)) .refl ⟨by unfold Call.Ok; decide, fun _ => exAt_env true _⟩ trivial ?_
      simp only [Sys.step, e2]
    · cases q3
  · cases q3

/-- A slab without live blocks that is accessible, and is not any more after `malloc_trim`. -/
example : ∃ h s, Reach (exCfg false false false) (exRo false false false) (fun t => t % 4) true anyClient h s ∧ (∀ p, live h p = none) ∧ s.access exA ∧
    ∃ chs s', (∀ n, Env true (chs n)) ∧ s.call (exRo false false false) (fun t => t % 4) 0 .trim chs = .ok (s', .bool true) ∧ ¬ s'.access exA := by
  obtain ⟨h, s, h1, h2⟩ := ex_any0 (stats := false) (sealed := false) (calm := true) [.call 0 (.malloc 100) 0, .call 0 (.free exA) 0]
    (fun h s => decide (s.σ.vm.prot (exA / 4096) = .rw) && (match h with | [.call _ (.free p) _, .call _ (.malloc _) (.ptr q)] => decide (p = q) | _ => false) &&
      match s.call (exRo false false false) (fun t => t % 4) 0 .trim (fun _ => exAt 0) with
      | .ok (s1, .bool true) => decide (s1.σ.vm.prot (exA / 4096) ≠ .rw)
      | _ => false)
    (by decide +kernel)
  simp only [Bool.and_eq_true, decide_eq_true_eq] at h2
  obtain ⟨⟨q1, q2⟩, q3⟩ := h2
  refine ⟨h, s, h1, fun x => ?_, q1, fun _ => exAt 0, ?_⟩
  · split at q2
    · rw [decide_eq_true_eq] at q2
      subst q2
      rename_i p _ _ _
      simp only [live, liveStep, Call.request, Ret.block]
      by_cases k : x = p
      · rw [if_pos k]
      · rw [if_neg k]
        by_cases k0 : p = 0
        · rw [if_pos k0]
        · rw [if_neg k0]; exact if_neg k
    · cases q2
  · split at q3
    · rename_i s1 e1
      rw [decide_eq_true_eq] at q3
      exact ⟨s1, fun _ => exAt_env true 0, e1, q3⟩
    · cases q3

/-- The first slab of a class is inaccessible until the first block of the class is allocated. -/
example : ∃ h s, Reach (exCfg false false false) (exRo false false false) (fun t => t % 4) true anyClient h s ∧ ¬ s.access exA ∧
    ∃ chs s' p, (∀ n, Env true (chs n)) ∧ s.call (exRo false false false) (fun t => t % 4) 0 (.malloc 100) chs = .ok (s', .ptr p) ∧ s'.access exA := by
  obtain ⟨h, s, h1, h2⟩ := ex_any0 (stats := false) (sealed := false) (calm := true) [.call 0 (.malloc 300) 0]
    (fun _ s => decide (s.σ.vm.prot (exA / 4096) ≠ .rw) &&
      match s.call (exRo false false false) (fun t => t % 4) 0 (.malloc 100) (fun _ => exAt 0) with
      | .ok (s1, .ptr _) => decide (s1.σ.vm.prot (exA / 4096) = .rw)
      | _ => false)
    (by decide +kernel)
  simp only [Bool.and_eq_true, decide_eq_true_eq] at h2
  obtain ⟨q1, q2⟩ := h2
  refine ⟨h, s, h1, q1, fun _ => exAt 0, ?_⟩
  split at q2
  · rename_i s1 p e
    rw [decide_eq_true_eq] at q2
    exact ⟨s1, p, fun _ => exAt_env true 0, e, q2⟩
  · cases q2

end HM
