import Verif.GhostShrink
/-
Writes into blocks, and the region quarantine.
-/
namespace HM

variable {ro : Ro}

/-! ### Writes -/

/-- The bytes changed belong to block `p`. -/
structure MemStep (ro : Ro) (p : Nat) (w : World) (vm' : Vm) : Prop where
  prot : vm'.prot = w.σ.vm.prot
  mem : ∀ x, vm'.mem x ≠ w.σ.vm.mem x → UserByte ro w p x

/-- The world after a write. -/
def World.setMem (w : World) (vm' : Vm) : World := ⟨{ w.σ with vm := vm' }, w.G⟩

/-- Live small blocks are disjoint. -/
theorem IsSmall.disjoint {w : World} (hro : RoOk ro) (h : GInv ro w) {p a c i k q a' c' i' k' x : Nat}
    (hs : IsSmall ro w.σ p a c i k) (hs' : IsSmall ro w.σ q a' c' i' k') (hx : inRange p (ro.g.slotSize c) x)
    (hx' : inRange q (ro.g.slotSize c') x) : p = q ∧ a = a' ∧ c = c' ∧ i = i' ∧ k = k' := by
  obtain ⟨hi, hk, _⟩ := hs.lt h
  obtain ⟨hi', hk', _⟩ := hs'.lt h
  obtain ⟨ha, hc, rfl, _⟩ := hs
  obtain ⟨ha', hc', rfl, _⟩ := hs'
  have h1 := slot_classMem (a := a) hc hi hk hx
  have h2 := slot_classMem (a := a') hc' hi' hk' hx'
  obtain ⟨rfl, rfl⟩ := classMem_inj hro ha hc ha' hc' h1 h2
  obtain ⟨rfl, rfl⟩ := slot_disjoint hc hk hk' hx hx'
  exact ⟨rfl, rfl, rfl, rfl, rfl⟩

theorem UserByte.rw {w : World} (hro : RoOk ro) (h : GInv ro w) {p x : Nat} (hu : UserByte ro w p x) :
    w.σ.vm.prot (x / PAGE) = .rw := by
  rcases hu with ⟨a, c, i, k, hs, hz, hx⟩ | ⟨s, g, hr, hx⟩
  · obtain ⟨hi, hk, hl⟩ := hs.lt h
    obtain ⟨ha, hc, rfl, _⟩ := hs
    exact (h.clsVm a c ha hc).rw i x hl hz (slot_range_slab hc hk (by unfold inRange at *; omega))
  · exact h.regRw _ _ hr (inPages_of_pageUp (h.reg _ hr).pmod hx)

theorem UserByte.own {w : World} (hro : RoOk ro) (h : GInv ro w) {p x : Nat} (hu : UserByte ro w p x) :
    w.G.own (x / PAGE) = .slab ∨ w.G.own (x / PAGE) = .reg p := by
  rcases hu with ⟨a, c, i, k, hs, hz, hx⟩ | ⟨s, g, hr, hx⟩
  · exact Or.inl (hs.own hro h (by unfold inRange at *; omega))
  · exact Or.inr (h.reg_body hr (inPages_of_pageUp (h.reg _ hr).pmod hx))

section
variable {w : World} {p : Nat} {vm' : Vm}

theorem MemStep.same_mem (s : MemStep ro p w vm') {x : Nat} (hx : ¬ UserByte ro w p x) : vm'.mem x = w.σ.vm.mem x := by
  by_contra hn; exact hx (s.mem x hn)

theorem MemStep.ginv (hro : RoOk ro) (h : GInv ro w) (s : MemStep ro p w vm') : GInv ro (w.setMem vm') := by
  have hp : ∀ pg, vm'.prot pg = w.σ.vm.prot pg := fun pg => by rw [s.prot]
  refine ⟨h.cls, fun a c ha hc => ?_, fun pg hpg hx => (hp pg).trans (h.gaps pg hpg hx), h.rt, h.reg, h.slabOwn, h.regOwn,
    fun r pg hr hx => (hp pg).trans (h.regRw r pg hr hx), fun r pg hr hx => (hp pg).trans (h.regLo r pg hr hx),
    fun r pg hr hx => (hp pg).trans (h.regHi r pg hr hx), h.qrOwn, h.qqOwn, h.qrOk, h.qqOk, h.qi,
    fun pg hpg => by show vm'.prot pg ≠ _; rw [hp pg]; exact h.mapped pg hpg, h.blk, h.eff, h.cache,
    fun hc pg i ho => by show vm'.prot pg ≠ _; rw [hp pg]; exact h.qprot hc pg i ho⟩
  obtain ⟨P, E, F, hi⟩ := h.cls a c ha hc
  refine SCVm.congrVm hc hi (h.clsVm a c ha hc) (fun x _ => hp _) (fun x _ hx => ?_)
  exact s.same_mem fun hu => by rw [hu.rw hro h] at hx; exact absurd hx (by simp)

theorem MemStep.keep (hro : RoOk ro) (h : GInv ro w) (s : MemStep ro p w vm') {q : Nat} (hq : q ≠ p) : KeepB ro w (w.setMem vm') q where
  blk := rfl
  small := fun a c i k hs => ⟨hs, rfl, fun x hx => s.same_mem fun hu => by
    rcases hu with ⟨a', c', i', k', hs', hz, hx'⟩ | ⟨z, g, hr, hx'⟩
    · exact hq (hs.disjoint hro h hs' hx (by unfold inRange at *; omega)).1
    · have h1 := h.reg_body hr (inPages_of_pageUp (h.reg _ hr).pmod hx')
      rw [hs.own hro h hx] at h1; exact absurd h1 (by simp)⟩
  large := fun z g hr => ⟨hr, rfl, fun x hx => s.same_mem fun hu => by
    have h1 := h.reg_body hr (inPages_of_pageUp (h.reg _ hr).pmod hx)
    rcases hu.own hro h with h2 | h2 <;> rw [h1] at h2
    · exact absurd h2 (by simp)
    · simp only [Owner.reg.injEq] at h2; exact hq h2⟩

/-- The canary of the block itself is kept. -/
theorem MemStep.content (hro : RoOk ro) (h : GInv ro w) (s : MemStep ro p w vm') (hc : Content ro w) : Content ro (w.setMem vm') := by
  intro a c ha hcc i k hi hk hz
  obtain ⟨h1, h2⟩ := hc a c ha hcc i k hi hk hz
  have G := classGeo ro.g hcc
  have hsl : ∀ x, inRange (slotAddr ro.g (ro.regionStart a c) c i k) (ro.g.slotSize c) x → UserByte ro w p x →
      IsSmall ro w.σ p a c i k ∧ inRange p (ro.g.slotSize c - ro.g.canarySize) x := by
    intro x hx hu
    have hm := slot_classMem (a := a) hcc hi hk hx
    rcases hu with ⟨a', c', i', k', hs, hz, hx'⟩ | ⟨z, g, hr, hx'⟩
    · obtain ⟨hi', hk', _⟩ := hs.lt h
      have hs0 := hs
      obtain ⟨ha', hc', e, _⟩ := hs
      have hx1 : inRange p (ro.g.slotSize c') x := by unfold inRange at *; omega
      have hx2 := hx1
      rw [e] at hx2
      obtain ⟨rfl, rfl⟩ := classMem_inj hro ha hcc ha' hc' hm (slot_classMem (a := a') hc' hi' hk' hx2)
      obtain ⟨rfl, rfl⟩ := slot_disjoint hcc hk hk' hx hx2
      exact ⟨hs0, hx'⟩
    · have h1 := h.reg_body hr (inPages_of_pageUp (h.reg _ hr).pmod hx')
      rw [h.class_own hro ha hcc hm] at h1; exact absurd h1 (by simp)
  refine ⟨fun hl hf x hx => ?_, fun hl hcn => ?_⟩
  · rw [← h1 hl hf x hx]
    refine s.same_mem fun hu => ?_
    have := (hsl x (by unfold inRange at *; omega) hu).1.2.2.2
    have hl : (w.σ.sc a c).live i k = false := hl
    rw [hl] at this; exact absurd this (by simp)
  · have h3 : 16 ≤ ro.g.slotSize c := G.size_ge
    have h4 : ro.g.canarySize = 8 := by unfold Cfg.canarySize; rw [hcn]; rfl
    refine (h2 hl hcn).congr fun j hj => ?_
    refine s.same_mem fun hu => ?_
    obtain ⟨hs, hx⟩ := hsl _ (by unfold inRange; omega) hu
    rw [hs.2.2.1, h4] at hx
    unfold inRange at hx; omega

theorem MemStep.trans (hro : RoOk ro) (h : GInv ro w) (s : MemStep ro p w vm') : Trans ro (fun o => o ≠ w.G.blk p) w (w.setMem vm') where
  inv := s.ginv hro h
  same := fun o hn ho => by
    refine Same.of (SameB.of_keep (· = p) (fun q hq => s.keep hro h hq) ?_) ?_
    · rintro q rfl
      exact ⟨ho.symm, ho.symm⟩
    · rintro t' rfl
      refine ⟨fun _ => Iff.rfl, fun pg _ => by show vm'.prot pg = _; rw [s.prot], fun x hx => s.same_mem fun hu => ?_⟩
      rcases hu.own hro h with h2 | h2 <;> rw [h2] at hx <;> exact absurd hx (by simp)
  content := s.content hro h
  stat := fun hs => ⟨hs.small, hs.large⟩
  delay := ⟨fun _ _ => Nat.le_refl _, fun _ _ _ _ => Nat.le_refl _, fun _ _ _ _ _ _ => Nat.le_add_right _ _, Nat.le_refl _, fun _ => Nat.le_add_right _ _, rfl⟩

theorem MemStep.guar {t : Nat} (hro : RoOk ro) (h : GInv ro w) (hb : w.G.blk p = .thr t) (s : MemStep ro p w vm') :
    Guar ro t w (w.setMem vm') := by
  have := s.trans hro h
  rw [hb] at this; exact this

theorem MemStep.sameP {t : Nat} (hro : RoOk ro) (h : GInv ro w) (s : MemStep ro p w vm') : SameP t w (w.setMem vm') :=
  ⟨fun _ => Iff.rfl, fun pg _ => by show vm'.prot pg = _; rw [s.prot], fun x hx => s.same_mem fun hu => by
    rcases hu.own hro h with h2 | h2 <;> rw [h2] at hx <;> exact absurd hx (by simp)⟩

end

/-! ### The region quarantine -/

/-- The world after a change of the quarantine. -/
def World.setQuar (w : World) (qr qq : Nat → Nat × Nat) (qi : Nat) (own : Nat → Owner) (n : Nat) : World :=
  ⟨{ w.σ with qr := qr, qq := qq, qi := qi }, { w.G with own := own, pushes := w.G.pushes + n }⟩

/-- A change of the quarantine by `t`. -/
structure QuarStep (ro : Ro) (t : Nat) (w : World) (qr qq : Nat → Nat × Nat) (qi : Nat) (own : Nat → Owner) (n : Nat) : Prop where
  keep : ∀ pg o, o ≠ .held t → (∀ i, o ≠ .qr i) → (∀ i, o ≠ .qq i) → (own pg = o ↔ w.G.own pg = o)
  qrOwn : ∀ pg i, own pg = .qr i ↔ i < ro.g.regionQRandom ∧ (qr i).1 ≠ 0 ∧ inPages (qr i).1 (qr i).2 pg
  qqOwn : ∀ pg i, own pg = .qq i ↔ i < ro.g.regionQQueue ∧ (qq i).1 ≠ 0 ∧ inPages (qq i).1 (qq i).2 pg
  qrOk : ∀ i, i < ro.g.regionQRandom → (qr i).1 ≠ 0 → QEntryOk (qr i)
  qqOk : ∀ i, i < ro.g.regionQQueue → (qq i).1 ≠ 0 → QEntryOk (qq i)
  idx : ro.g.regionQQueue ≠ 0 → qi < ro.g.regionQQueue
  delay : ∀ pg, pageDelay ro.g w pg ≤ pageDelay ro.g (w.setQuar qr qq qi own n) pg + n
  prot : w.G.calm = true → ∀ pg i, own pg = .qr i ∨ own pg = .qq i → w.σ.vm.prot pg ≠ .rw

section
variable {w : World} {t : Nat} {qr qq : Nat → Nat × Nat} {qi : Nat} {own : Nat → Owner} {n : Nat}

theorem QuarStep.lstep (s : QuarStep ro t w qr qq qi own n) : LStep w (w.setQuar qr qq qi own n) :=
  ⟨rfl, rfl, rfl, rfl, rfl, fun pg => s.keep pg _ (by simp) (by simp) (by simp), fun _ _ => rfl, fun _ _ => rfl⟩

theorem QuarStep.ginv (hro : RoOk ro) (h : GInv ro w) (s : QuarStep ro t w qr qq qi own n) : GInv ro (w.setQuar qr qq qi own n) :=
  ⟨h.cls, h.clsVm, s.lstep.gaps h, h.rt, h.reg, fun pg => (s.lstep.slab pg).trans (h.slabOwn pg),
   fun pg p => (s.keep pg _ (by simp) (by simp) (by simp)).trans (h.regOwn pg p), h.regRw, h.regLo, h.regHi, s.qrOwn, s.qqOwn, s.qrOk,
   s.qqOk, s.idx, fun pg hpg => h.mapped pg fun e => hpg ((s.keep pg _ (by simp) (by simp) (by simp)).mpr e), h.blk, h.eff, h.cache, s.prot⟩

theorem QuarStep.keepB (hro : RoOk ro) (h : GInv ro w) (s : QuarStep ro t w qr qq qi own n) (q : Nat) :
    KeepB ro w (w.setQuar qr qq qi own n) q :=
  ⟨rfl, fun _ _ _ _ hs => s.lstep.keepSmall hro h hs, fun _ _ hr => ⟨hr, rfl, fun _ _ => rfl⟩⟩

theorem QuarStep.trans (hro : RoOk ro) (h : GInv ro w) (s : QuarStep ro t w qr qq qi own n) :
    Guar ro t w (w.setQuar qr qq qi own n) where
  inv := s.ginv hro h
  same := fun o hn ho => by
    refine Same.of (SameB.of_keep (fun _ => False) (fun q _ => s.keepB hro h q) (fun _ e => absurd e id)) ?_
    rintro t' rfl
    exact ⟨fun pg => s.keep pg _ (fun e => ho (by cases e; rfl)) (by simp) (by simp), fun _ _ => rfl, fun _ _ => rfl⟩
  content := s.lstep.content hro h
  stat := fun hs => ⟨s.lstep.statSmall hs, hs.large⟩
  delay := s.lstep.delay (Nat.le_add_right _ _) fun pg => by
    have := s.delay pg
    show _ ≤ _ + (w.G.pushes + n - w.G.pushes)
    rw [Nat.add_sub_cancel_left]; exact this

end

theorem setAt_same {β : Type} (f : Nat → β) (i : Nat) (v : β) : setAt f i v i = v := by simp [setAt]
theorem setAt_ne {β : Type} (f : Nat → β) {i j : Nat} (v : β) (h : j ≠ i) : setAt f i v j = f j := by simp [setAt, h]

/-- Entering the random quarantine at `i`, the previous entry being empty or replaced. -/
def ownRand (w : World) (t i : Nat) (e : Nat × Nat) : Nat → Owner := fun pg =>
  if inPages e.1 e.2 pg then .qr i else if w.G.own pg = .qr i then .held t else w.G.own pg

/-- Entering the queue. -/
def ownQueue (w : World) (t : Nat) (e : Nat × Nat) : Nat → Owner := fun pg =>
  if inPages e.1 e.2 pg then .qq w.σ.qi else if w.G.own pg = .qq w.σ.qi then .held t else w.G.own pg

/-- Entering the random quarantine at `i`, the previous entry moving to the queue. -/
def ownBoth (w : World) (t i : Nat) (e : Nat × Nat) : Nat → Owner := fun pg =>
  if inPages e.1 e.2 pg then .qr i else if w.G.own pg = .qr i then .qq w.σ.qi
  else if w.G.own pg = .qq w.σ.qi then .held t else w.G.own pg

section
variable {w : World} {t : Nat} {e : Nat × Nat}

theorem quarStep_rand (h : GInv ro w) {i : Nat} (hi : i < ro.g.regionQRandom) (he : QEntryOk e)
    (hown : ∀ pg, inPages e.1 e.2 pg → w.G.own pg = .held t)
    (hpr : w.G.calm = true → ∀ pg, inPages e.1 e.2 pg → w.σ.vm.prot pg ≠ .rw) {n : Nat}
    (hd : (w.σ.qr i).1 = 0 ∨ ro.g.regionQQueue + 1 ≤ n) :
    QuarStep ro t w (setAt w.σ.qr i e) w.σ.qq w.σ.qi (ownRand w t i e) n := by
  refine ⟨fun pg o h1 h2 h3 => ?_, fun pg j => ?_, fun pg j => ?_, fun j hj h0 => ?_, h.qqOk, h.qi, fun pg => ?_, fun hc pg j ho => ?_⟩
  · unfold ownRand
    by_cases k : inPages e.1 e.2 pg
    · rw [if_pos k, hown pg k]; exact ⟨fun e => absurd e.symm (h2 i), fun e => absurd e.symm h1⟩
    · rw [if_neg k]
      by_cases k' : w.G.own pg = .qr i
      · rw [if_pos k', k']; exact ⟨fun e => absurd e.symm h1, fun e => absurd e.symm (h2 i)⟩
      · rw [if_neg k']
  · unfold ownRand
    by_cases hj : j = i
    · subst hj
      rw [setAt_same]
      by_cases k : inPages e.1 e.2 pg
      · rw [if_pos k]; have := he.lo; exact iff_of_true rfl ⟨hi, by omega, k⟩
      · rw [if_neg k]
        refine iff_of_false (fun e => ?_) fun e => k e.2.2
        by_cases k' : w.G.own pg = .qr j
        · rw [if_pos k'] at e; exact absurd e (by simp)
        · rw [if_neg k'] at e; exact k' e
    · rw [setAt_ne _ _ hj, ← h.qrOwn]
      by_cases k : inPages e.1 e.2 pg
      · rw [if_pos k, hown pg k]; exact iff_of_false (by simpa using fun e => hj e.symm) (by simp)
      · rw [if_neg k]
        by_cases k' : w.G.own pg = .qr i
        · rw [if_pos k', k']; exact iff_of_false (by simp) (by simpa using fun e => hj e.symm)
        · rw [if_neg k']
  · rw [← h.qqOwn]
    unfold ownRand
    by_cases k : inPages e.1 e.2 pg
    · rw [if_pos k, hown pg k]; simp
    · rw [if_neg k]
      by_cases k' : w.G.own pg = .qr i
      · rw [if_pos k', k']; simp
      · rw [if_neg k']
  · by_cases hji : j = i
    · subst hji; rw [setAt_same]; exact he
    · rw [setAt_ne _ _ hji] at h0 ⊢; exact h.qrOk j hj h0
  · unfold pageDelay World.setQuar ownRand
    simp only
    by_cases k : inPages e.1 e.2 pg
    · rw [hown pg k]; simp
    · rw [if_neg k]
      by_cases k' : w.G.own pg = .qr i
      · rw [if_pos k', k']
        rcases hd with hd | hd
        · exact absurd hd ((h.qrOwn pg i).mp k').2.1
        · simpa using hd
      · rw [if_neg k']; exact Nat.le_add_right _ _
  · unfold ownRand at ho
    by_cases k : inPages e.1 e.2 pg
    · exact hpr hc pg k
    · rw [if_neg k] at ho
      by_cases k' : w.G.own pg = .qr i
      · exact h.qprot hc pg _ (Or.inl k')
      · rw [if_neg k'] at ho; exact h.qprot hc pg j ho

theorem quarStep_queue (h : GInv ro w) (hq : ro.g.regionQQueue ≠ 0) (he : QEntryOk e)
    (hown : ∀ pg, inPages e.1 e.2 pg → w.G.own pg = .held t)
    (hpr : w.G.calm = true → ∀ pg, inPages e.1 e.2 pg → w.σ.vm.prot pg ≠ .rw) :
    QuarStep ro t w w.σ.qr (setAt w.σ.qq w.σ.qi e) ((w.σ.qi + 1) % ro.g.regionQQueue) (ownQueue w t e) 1 := by
  have hi := h.qi hq
  refine ⟨fun pg o h1 h2 h3 => ?_, fun pg j => ?_, fun pg j => ?_, h.qrOk, fun j hj h0 => ?_, fun _ => Nat.mod_lt _ (by omega), fun pg => ?_, fun hc pg j ho => ?_⟩
  · unfold ownQueue
    by_cases k : inPages e.1 e.2 pg
    · rw [if_pos k, hown pg k]; exact ⟨fun e => absurd e.symm (h3 _), fun e => absurd e.symm h1⟩
    · rw [if_neg k]
      by_cases k' : w.G.own pg = .qq w.σ.qi
      · rw [if_pos k', k']; exact ⟨fun e => absurd e.symm h1, fun e => absurd e.symm (h3 _)⟩
      · rw [if_neg k']
  · rw [← h.qrOwn]
    unfold ownQueue
    by_cases k : inPages e.1 e.2 pg
    · rw [if_pos k, hown pg k]; simp
    · rw [if_neg k]
      by_cases k' : w.G.own pg = .qq w.σ.qi
      · rw [if_pos k', k']; simp
      · rw [if_neg k']
  · unfold ownQueue
    by_cases hj : j = w.σ.qi
    · subst hj
      rw [setAt_same]
      by_cases k : inPages e.1 e.2 pg
      · rw [if_pos k]; have := he.lo; exact iff_of_true rfl ⟨hi, by omega, k⟩
      · rw [if_neg k]
        refine iff_of_false (fun e => ?_) fun e => k e.2.2
        by_cases k' : w.G.own pg = .qq w.σ.qi
        · rw [if_pos k'] at e; exact absurd e (by simp)
        · rw [if_neg k'] at e; exact k' e
    · rw [setAt_ne _ _ hj, ← h.qqOwn]
      by_cases k : inPages e.1 e.2 pg
      · rw [if_pos k, hown pg k]; exact iff_of_false (by simpa using fun e => hj e.symm) (by simp)
      · rw [if_neg k]
        by_cases k' : w.G.own pg = .qq w.σ.qi
        · rw [if_pos k', k']; exact iff_of_false (by simp) (by simpa using fun e => hj e.symm)
        · rw [if_neg k']
  · by_cases hji : j = w.σ.qi
    · subst hji; rw [setAt_same]; exact he
    · rw [setAt_ne _ _ hji] at h0 ⊢; exact h.qqOk j hj h0
  · unfold pageDelay World.setQuar ownQueue
    simp only
    by_cases k : inPages e.1 e.2 pg
    · rw [hown pg k]; simp
    · rw [if_neg k]
      by_cases k' : w.G.own pg = .qq w.σ.qi
      · rw [if_pos k', k']
        simp
      · rw [if_neg k']
        cases e0 : w.G.own pg with
        | qq j =>
          simp only
          refine delay_queue hi ((h.qqOwn pg j).mp e0).1 ?_
          rintro rfl; exact k' e0
        | _ => simp
  · unfold ownQueue at ho
    by_cases k : inPages e.1 e.2 pg
    · exact hpr hc pg k
    · rw [if_neg k] at ho
      by_cases k' : w.G.own pg = .qq w.σ.qi
      · exact h.qprot hc pg _ (Or.inr k')
      · rw [if_neg k'] at ho; exact h.qprot hc pg j ho

theorem quarStep_both (h : GInv ro w) {i : Nat} (hi : i < ro.g.regionQRandom) (hq : ro.g.regionQQueue ≠ 0) (he : QEntryOk e)
    (h0 : (w.σ.qr i).1 ≠ 0) (hown : ∀ pg, inPages e.1 e.2 pg → w.G.own pg = .held t)
    (hpr : w.G.calm = true → ∀ pg, inPages e.1 e.2 pg → w.σ.vm.prot pg ≠ .rw) :
    QuarStep ro t w (setAt w.σ.qr i e) (setAt w.σ.qq w.σ.qi (w.σ.qr i)) ((w.σ.qi + 1) % ro.g.regionQQueue) (ownBoth w t i e) 1 := by
  have hiq := h.qi hq
  refine ⟨fun pg o h1 h2 h3 => ?_, fun pg j => ?_, fun pg j => ?_, fun j hj h0 => ?_, fun j hj h0' => ?_, fun _ => Nat.mod_lt _ (by omega), fun pg => ?_, fun hc pg j ho => ?_⟩
  · unfold ownBoth
    by_cases k : inPages e.1 e.2 pg
    · rw [if_pos k, hown pg k]; exact ⟨fun e => absurd e.symm (h2 i), fun e => absurd e.symm h1⟩
    · rw [if_neg k]
      by_cases k' : w.G.own pg = .qr i
      · rw [if_pos k', k']; exact ⟨fun e => absurd e.symm (h3 _), fun e => absurd e.symm (h2 i)⟩
      · rw [if_neg k']
        by_cases k2 : w.G.own pg = .qq w.σ.qi
        · rw [if_pos k2, k2]; exact ⟨fun e => absurd e.symm h1, fun e => absurd e.symm (h3 _)⟩
        · rw [if_neg k2]
  · unfold ownBoth
    by_cases hj : j = i
    · subst hj
      rw [setAt_same]
      by_cases k : inPages e.1 e.2 pg
      · rw [if_pos k]; have := he.lo; exact iff_of_true rfl ⟨hi, by omega, k⟩
      · rw [if_neg k]
        refine iff_of_false (fun e => ?_) fun e => k e.2.2
        by_cases k' : w.G.own pg = .qr j
        · rw [if_pos k'] at e; exact absurd e (by simp)
        · rw [if_neg k'] at e
          by_cases k2 : w.G.own pg = .qq w.σ.qi
          · rw [if_pos k2] at e; exact absurd e (by simp)
          · rw [if_neg k2] at e; exact k' e
    · rw [setAt_ne _ _ hj, ← h.qrOwn]
      by_cases k : inPages e.1 e.2 pg
      · rw [if_pos k, hown pg k]; exact iff_of_false (by simpa using fun e => hj e.symm) (by simp)
      · rw [if_neg k]
        by_cases k' : w.G.own pg = .qr i
        · rw [if_pos k', k']; exact iff_of_false (by simp) (by simpa using fun e => hj e.symm)
        · rw [if_neg k']
          by_cases k2 : w.G.own pg = .qq w.σ.qi
          · rw [if_pos k2, k2]; simp
          · rw [if_neg k2]
  · unfold ownBoth
    by_cases hj : j = w.σ.qi
    · subst hj
      rw [setAt_same]
      by_cases k : inPages e.1 e.2 pg
      · rw [if_pos k]
        refine iff_of_false (by simp) fun e' => ?_
        have := (h.qrOwn pg i).mpr ⟨hi, h0, e'.2.2⟩
        rw [hown pg k] at this; exact absurd this (by simp)
      · rw [if_neg k]
        by_cases k' : w.G.own pg = .qr i
        · rw [if_pos k']
          exact iff_of_true rfl ⟨hiq, h0, ((h.qrOwn pg i).mp k').2.2⟩
        · rw [if_neg k']
          refine iff_of_false (fun e => ?_) fun e => k' ((h.qrOwn pg i).mpr ⟨hi, h0, e.2.2⟩)
          by_cases k2 : w.G.own pg = .qq w.σ.qi
          · rw [if_pos k2] at e; exact absurd e (by simp)
          · rw [if_neg k2] at e; exact k2 e
    · rw [setAt_ne _ _ hj, ← h.qqOwn]
      by_cases k : inPages e.1 e.2 pg
      · rw [if_pos k, hown pg k]; exact iff_of_false (by simp) (by simp)
      · rw [if_neg k]
        by_cases k' : w.G.own pg = .qr i
        · rw [if_pos k', k']; exact iff_of_false (by simpa using fun e => hj e.symm) (by simp)
        · rw [if_neg k']
          by_cases k2 : w.G.own pg = .qq w.σ.qi
          · rw [if_pos k2, k2]; exact iff_of_false (by simp) (by simpa using fun e => hj e.symm)
          · rw [if_neg k2]
  · by_cases hji : j = i
    · subst hji; rw [setAt_same]; exact he
    · rw [setAt_ne _ _ hji] at h0 ⊢; exact h.qrOk j hj h0
  · by_cases hji : j = w.σ.qi
    · subst hji; rw [setAt_same]; exact h.qrOk i hi h0
    · rw [setAt_ne _ _ hji] at h0' ⊢; exact h.qqOk j hj h0'
  · unfold pageDelay World.setQuar ownBoth
    simp only
    by_cases k : inPages e.1 e.2 pg
    · rw [hown pg k]; simp
    · rw [if_neg k]
      by_cases k' : w.G.own pg = .qr i
      · rw [if_pos k', k']
        have := delay_self hiq
        simp only
        omega
      · rw [if_neg k']
        by_cases k2 : w.G.own pg = .qq w.σ.qi
        · rw [if_pos k2, k2]
          simp
        · rw [if_neg k2]
          cases e0 : w.G.own pg with
          | qq j =>
            simp only
            refine delay_queue hiq ((h.qqOwn pg j).mp e0).1 ?_
            rintro rfl; exact k2 e0
          | _ => simp
  · unfold ownBoth at ho
    by_cases k : inPages e.1 e.2 pg
    · exact hpr hc pg k
    · rw [if_neg k] at ho
      by_cases k' : w.G.own pg = .qr i
      · exact h.qprot hc pg i (Or.inl k')
      · rw [if_neg k'] at ho
        by_cases k2 : w.G.own pg = .qq w.σ.qi
        · exact h.qprot hc pg _ (Or.inr k2)
        · rw [if_neg k2] at ho; exact h.qprot hc pg j ho

end

end HM
