import Verif.RoGeo
/-
Actions that only touch pages nobody owns or that the acting thread holds.
-/
namespace HM

variable {ro : Ro}

theorem SCInv.rw_lt {g : Cfg} {base cls : Nat} {c : SC} {P E F : List Nat} {loc : Nat → Loc} {ql : Nat → Nat → QLoc}
    (h : SCInv g base cls c P E F loc ql) {i : Nat} (hl : loc i ≠ .fresh) : i < g.metaMax cls := by
  have : c.Active g i := by by_contra hc; exact hl ((h.bits.fresh i).mpr hc)
  have h1 := h.bits.act i this
  have h2 := h.bits.mle
  omega

theorem isRw_not_fresh {l : Loc} (h : l.isRw = true) : l ≠ .fresh := by
  intro e; rw [e] at h; simp [Loc.isRw] at h

/-- The invariant of the memory of a class only depends on the memory of its slabs. -/
theorem SCVm.congrVm {g : Cfg} {base cls : Nat} {c : SC} {P E F : List Nat} {loc : Nat → Loc} {ql : Nat → Nat → QLoc}
    {vm vm' : Vm} (hc : cls < nClasses g) (h : SCInv g base cls c P E F loc ql) (hvm : SCVm g base cls loc vm)
    (hp : ∀ x, inRange base (g.metaMax cls * g.slabSize cls) x → vm'.prot (x / PAGE) = vm.prot (x / PAGE))
    (hm : ∀ x, inRange base (g.metaMax cls * g.slabSize cls) x → vm.prot (x / PAGE) = .none → vm'.mem x = vm.mem x) :
    SCVm g base cls loc vm' where
  rw := fun i x hi hz hx => by
    rw [hp x (slab_of_slab hc (h.rw_lt (isRw_not_fresh hi)) hx)]; exact hvm.rw i x hi hz hx
  off := fun i x hi hz hx => by
    have hx' := slab_of_slab hc hi hx
    obtain ⟨h1, h2⟩ := hvm.off i x hi hz hx
    rw [hp x hx', hm x hx' h1]; exact ⟨h1, h2⟩

theorem class_region_slab (h : RoOk ro) {a c x : Nat} (ha : a < ro.g.nArena) (hc : c < nClasses ro.g)
    (hx : inRange (ro.regionStart a c) (ro.g.metaMax c * ro.g.slabSize c) x) :
    inPages ro.slabStart (ro.arenaSize * ro.g.nArena) (x / PAGE) := by
  rw [h.inSlab_pages]
  refine h.cell_slab ha hc (h.region_cell ha hc ?_)
  have := metaMax_le (g := ro.g) hc
  unfold inRange at *
  omega

theorem GInv.class_own {w : World} (hro : RoOk ro) (h : GInv ro w) {a c x : Nat} (ha : a < ro.g.nArena) (hc : c < nClasses ro.g)
    (hx : inRange (ro.regionStart a c) (ro.g.metaMax c * ro.g.slabSize c) x) : w.G.own (x / PAGE) = .slab :=
  (h.slabOwn _).mpr (class_region_slab hro ha hc hx)

theorem pageUp_eq (n : Nat) : pageUp n = (n + 4095) / PAGE * PAGE := rfl

theorem pageUp_le_iff {n : Nat} : n ≤ pageUp n := by unfold pageUp; omega

theorem pageUp_mod (n : Nat) : pageUp n % PAGE = 0 := by unfold pageUp; omega

theorem pageUp_of_mod {n : Nat} (h : n % PAGE = 0) : pageUp n = n := by unfold pageUp; omega

theorem pageUp_mono {m n : Nat} (h : m ≤ n) : pageUp m ≤ pageUp n := by unfold pageUp; omega

theorem inPages_body {p g n pg : Nat} (hp : p % PAGE = 0) (hg : g % PAGE = 0) (hl : g ≤ p) (h : inPages p n pg) :
    inPages (p - g) (pageUp n + 2 * g) pg := by unfold inPages pageUp at *; omega

theorem inPages_lo {p g n pg : Nat} (hp : p % PAGE = 0) (hg : g % PAGE = 0) (hl : g ≤ p) (h : inPages (p - g) g pg) :
    inPages (p - g) (pageUp n + 2 * g) pg := by unfold inPages pageUp at *; omega

theorem inPages_hi {p g n pg : Nat} (hp : p % PAGE = 0) (hg : g % PAGE = 0) (hl : g ≤ p) (h : inPages (p + pageUp n) g pg) :
    inPages (p - g) (pageUp n + 2 * g) pg := by unfold inPages pageUp at *; omega

theorem inPages_split {p g n pg : Nat} (hp : p % PAGE = 0) (hg : g % PAGE = 0) (hl : g ≤ p)
    (h : inPages (p - g) (pageUp n + 2 * g) pg) : inPages (p - g) g pg ∨ inPages p n pg ∨ inPages (p + pageUp n) g pg := by
  unfold inPages pageUp at *; omega

theorem inPages_of_inRange {p n x : Nat} (h : inRange p n x) : inPages p n (x / PAGE) := by
  unfold inPages inRange at *; omega

theorem inPages_of_pageUp {p n x : Nat} (hp : p % PAGE = 0) (h : inRange p (pageUp n) x) : inPages p n (x / PAGE) := by
  unfold inPages inRange pageUp at *; omega

theorem GInv.reg_body {w : World} (h : GInv ro w) {r : RegionMeta} (hr : w.σ.rt.Has r) {pg : Nat}
    (hx : inPages r.p (w.G.effSize r) pg) : w.G.own pg = .reg r.p := by
  have R := h.reg r hr
  exact (h.regOwn pg r.p).mpr ⟨r, hr, rfl, inPages_body R.pmod R.gmod (by have := R.lo; omega) hx⟩

theorem GInv.reg_lo {w : World} (h : GInv ro w) {r : RegionMeta} (hr : w.σ.rt.Has r) {pg : Nat}
    (hx : inPages (r.p - r.guard) r.guard pg) : w.G.own pg = .reg r.p := by
  have R := h.reg r hr
  exact (h.regOwn pg r.p).mpr ⟨r, hr, rfl, inPages_lo R.pmod R.gmod (by have := R.lo; omega) hx⟩

theorem GInv.reg_hi {w : World} (h : GInv ro w) {r : RegionMeta} (hr : w.σ.rt.Has r) {pg : Nat}
    (hx : inPages (r.p + pageUp (w.G.effSize r)) r.guard pg) : w.G.own pg = .reg r.p := by
  have R := h.reg r hr
  exact (h.regOwn pg r.p).mpr ⟨r, hr, rfl, inPages_hi R.pmod R.gmod (by have := R.lo; omega) hx⟩

/-- The address of a live small block is in the slots of its class, hence its memory belongs to the slab region. -/
theorem IsSmall.lt {w : World} (h : GInv ro w) {p a c i k : Nat} (hs : IsSmall ro w.σ p a c i k) :
    i < ro.g.metaMax c ∧ k < ro.g.slots c ∧ (w.G.loc a c i).isRw = true := by
  obtain ⟨ha, hc, _, hl⟩ := hs
  obtain ⟨P, E, F, hi⟩ := h.cls a c ha hc
  have hu : (w.σ.sc a c).used i k = true := by
    unfold SC.live at hl; simp only [Bool.and_eq_true] at hl; exact hl.1
  have hk := hi.bits.used_lt hu
  have hpos : 0 < ((w.σ.sc a c).slabs i).count := by
    rw [hi.bits.cnt i, Nat.pos_iff_ne_zero, Ne, bitCount_zero_iff]
    intro hz
    have := hz k hk
    unfold SC.used at hu
    rw [hu] at this
    exact absurd this (by simp)
  have hco := hi.cntOk i
  have hl : (w.G.loc a c i).isRw = true := by
    revert hco
    cases w.G.loc a c i <;> simp [CountOk, Loc.isRw] <;> omega
  exact ⟨hi.rw_lt (isRw_not_fresh hl), hk, hl⟩

theorem IsSmall.own {w : World} (hro : RoOk ro) (h : GInv ro w) {p a c i k x : Nat} (hs : IsSmall ro w.σ p a c i k)
    (hx : inRange p (ro.g.slotSize c) x) : w.G.own (x / PAGE) = .slab := by
  obtain ⟨hi, hk, _⟩ := hs.lt h
  obtain ⟨ha, hc, hp, _⟩ := hs
  rw [hp] at hx
  exact h.class_own hro ha hc (slab_of_slab hc hi (slot_range_slab hc hk hx))

/-- A change of memory and page owners that only concerns pages that nobody owns or that thread `t` holds, before and
after. -/
structure VmStep (t : Nat) (w : World) (vm' : Vm) (own' : Nat → Owner) : Prop where
  own : ∀ pg, own' pg = w.G.own pg ∨
    ((w.G.own pg = .none ∨ w.G.own pg = .held t) ∧ (own' pg = .none ∨ own' pg = .held t))
  prot : ∀ pg, w.G.own pg ≠ .none → w.G.own pg ≠ .held t → vm'.prot pg = w.σ.vm.prot pg
  mem : ∀ x, w.G.own (x / PAGE) ≠ .none → w.G.own (x / PAGE) ≠ .held t → vm'.mem x = w.σ.vm.mem x
  mapped : ∀ pg, own' pg ≠ .none → vm'.prot pg ≠ .unmapped

/-- The world after such a change. -/
def World.setVm (w : World) (vm : Vm) (own : Nat → Owner) : World := ⟨{ w.σ with vm := vm }, { w.G with own := own }⟩

theorem VmStep.own_iff {t : Nat} {w : World} {vm' : Vm} {own' : Nat → Owner} (s : VmStep t w vm' own') {pg : Nat} {o : Owner}
    (h1 : o ≠ .none) (h2 : o ≠ .held t) : own' pg = o ↔ w.G.own pg = o := by
  rcases s.own pg with e | ⟨e1, e2⟩
  · rw [e]
  · constructor
    · intro e
      rcases e2 with e2 | e2 <;> rw [e2] at e
      · exact absurd e.symm h1
      · exact absurd e.symm h2
    · intro e
      rcases e1 with e2 | e2 <;> rw [e2] at e
      · exact absurd e.symm h1
      · exact absurd e.symm h2

theorem GInv.vmStep {t : Nat} {w : World} {vm' : Vm} {own' : Nat → Owner} (hro : RoOk ro) (h : GInv ro w)
    (s : VmStep t w vm' own') : GInv ro (w.setVm vm' own') where
  cls := h.cls
  clsVm := fun a c ha hc => by
    obtain ⟨P, E, F, hi⟩ := h.cls a c ha hc
    refine SCVm.congrVm hc hi (h.clsVm a c ha hc) (fun x hx => ?_) (fun x hx _ => ?_)
    · have := h.class_own hro ha hc hx
      exact s.prot _ (by rw [this]; simp) (by rw [this]; simp)
    · have := h.class_own hro ha hc hx
      exact s.mem _ (by rw [this]; simp) (by rw [this]; simp)
  gaps := fun pg hpg hx => by
    have e := (s.own_iff (by simp) (by simp)).mp hpg
    have := h.gaps pg e hx
    rw [← this]
    exact s.prot pg (by rw [e]; simp) (by rw [e]; simp)
  rt := h.rt
  reg := h.reg
  slabOwn := fun pg => (s.own_iff (by simp) (by simp)).trans (h.slabOwn pg)
  regOwn := fun pg p => (s.own_iff (by simp) (by simp)).trans (h.regOwn pg p)
  regRw := fun r pg hr hx => by
    have e := h.reg_body hr hx
    have := h.regRw r pg hr hx
    rw [← this]
    exact s.prot pg (by rw [e]; simp) (by rw [e]; simp)
  regLo := fun r pg hr hx => by
    have e := h.reg_lo hr hx
    have := h.regLo r pg hr hx
    rw [← this]
    exact s.prot pg (by rw [e]; simp) (by rw [e]; simp)
  regHi := fun r pg hr hx => by
    have e := h.reg_hi hr hx
    have := h.regHi r pg hr hx
    rw [← this]
    exact s.prot pg (by rw [e]; simp) (by rw [e]; simp)
  qrOwn := fun pg i => (s.own_iff (by simp) (by simp)).trans (h.qrOwn pg i)
  qqOwn := fun pg i => (s.own_iff (by simp) (by simp)).trans (h.qqOwn pg i)
  qrOk := h.qrOk
  qqOk := h.qqOk
  qi := h.qi
  mapped := s.mapped
  blk := h.blk
  eff := h.eff
  cache := h.cache
  qprot := fun hc pg i ho => by
    have e : w.G.own pg = .qr i ∨ w.G.own pg = .qq i := ho.imp (s.own_iff (by simp) (by simp)).mp (s.own_iff (by simp) (by simp)).mp
    show vm'.prot pg ≠ _
    rw [s.prot pg (by rcases e with e | e <;> rw [e] <;> simp) (by rcases e with e | e <;> rw [e] <;> simp)]
    exact h.qprot hc pg i e

/-- Blocks are untouched by such a change. -/
theorem GInv.vmStep_blocks {t : Nat} {w : World} {vm' : Vm} {own' : Nat → Owner} (hro : RoOk ro) (h : GInv ro w)
    (s : VmStep t w vm' own') (o : Holder) : SameB ro o w (w.setVm vm' own') where
  blk := fun _ => Iff.rfl
  small := fun p a c i k _ hs => ⟨hs, rfl, fun x hx => by
    have e := hs.own hro h hx
    exact s.mem x (by rw [e]; simp) (by rw [e]; simp)⟩
  large := fun r _ hr => ⟨hr, rfl, fun x hx => by
    have e := h.reg_body hr (inPages_of_pageUp (h.reg r hr).pmod hx)
    exact s.mem x (by rw [e]; simp) (by rw [e]; simp)⟩

theorem GInv.vmStep_same {t : Nat} {w : World} {vm' : Vm} {own' : Nat → Owner} (hro : RoOk ro) (h : GInv ro w)
    (s : VmStep t w vm' own') {o : Holder} (ho : o ≠ .thr t) : Same ro o w (w.setVm vm' own') :=
  { h.vmStep_blocks hro s o with
    pages := fun t' e pg => s.own_iff (by simp) (by intro e'; cases e'; exact ho e)
    prot := fun t' e pg hpg => s.prot pg (by rw [hpg]; simp) (by rw [hpg]; intro e'; cases e'; exact ho e)
    mem := fun t' e x hpg => s.mem x (by rw [hpg]; simp) (by rw [hpg]; intro e'; cases e'; exact ho e) }

/-- Content only depends on the slots and metadata of the classes. -/
theorem Content.congr {w w' : World}
    (hlive : ∀ a c i k, a < ro.g.nArena → c < nClasses ro.g → (w'.σ.sc a c).live i k = (w.σ.sc a c).live i k)
    (hcan : ∀ a c i k, a < ro.g.nArena → c < nClasses ro.g → (w.σ.sc a c).live i k = true →
      ((w'.σ.sc a c).slabs i).canary = ((w.σ.sc a c).slabs i).canary)
    (hmem : ∀ a c i k x, a < ro.g.nArena → c < nClasses ro.g → i < ro.g.metaMax c → k < ro.g.slots c →
      inRange (slotAddr ro.g (ro.regionStart a c) c i k) (ro.g.slotSize c) x → 
      ((w.σ.sc a c).live i k = true → inRange (slotAddr ro.g (ro.regionStart a c) c i k + ro.g.slotSize c - 8) 8 x) →
      w'.σ.vm.mem x = w.σ.vm.mem x)
    (h : Content ro w) : Content ro w' := by
  intro a c ha hc i k hi hk hz
  obtain ⟨h1, h2⟩ := h a c ha hc i k hi hk hz
  have G := classGeo ro.g hc
  rw [hlive a c i k ha hc]
  refine ⟨fun hl hf x hx => ?_, fun hl hcn => ?_⟩
  · rw [hmem a c i k x ha hc hi hk (by unfold inRange at *; omega) (by rw [hl]; simp)]
    exact h1 hl hf x hx
  · have h3 : 16 ≤ ro.g.slotSize c := G.size_ge
    rw [hcan a c i k ha hc hl]
    exact (h2 hl hcn).congr fun j hj => hmem a c i k _ ha hc hi hk (by unfold inRange; omega) (fun _ => by unfold inRange; omega)

theorem pageDelay_congr {g : Cfg} {w w' : World} {pg : Nat} (hq : w'.σ.qi = w.σ.qi)
    (h : w'.G.own pg = w.G.own pg ∨ ((∀ i, w.G.own pg ≠ .qr i) ∧ ∀ i, w.G.own pg ≠ .qq i)) :
    pageDelay g w pg ≤ pageDelay g w' pg := by
  unfold pageDelay
  rcases h with h | ⟨h1, h2⟩
  · rw [h, hq]
  · cases e : w.G.own pg with
    | qr i => exact absurd e (h1 i)
    | qq i => exact absurd e (h2 i)
    | _ => simp

theorem GInv.vmStep_trans {t : Nat} {w : World} {vm' : Vm} {own' : Nat → Owner} (hro : RoOk ro) (h : GInv ro w)
    (s : VmStep t w vm' own') : Guar ro t w (w.setVm vm' own') where
  inv := h.vmStep hro s
  same := fun o _ ho => h.vmStep_same hro s ho
  content := Content.congr (fun _ _ _ _ _ _ => rfl) (fun _ _ _ _ _ _ _ => rfl) fun a c i k x ha hc hi hk hx _ => by
    have e := h.class_own hro ha hc (slab_of_slab hc hi (slot_range_slab hc hk hx))
    exact s.mem x (by rw [e]; simp) (by rw [e]; simp)
  stat := fun hs => ⟨hs.small, hs.large⟩
  delay := 
    { Delay.refl w with
      page := fun pg => by
        refine Nat.le_trans (pageDelay_congr (w' := w.setVm vm' own') rfl ?_) (Nat.le_add_right _ _)
        rcases s.own pg with e | ⟨e, _⟩
        · exact Or.inl e
        · right
          rcases e with e | e <;> rw [e] <;> simp }

end HM
