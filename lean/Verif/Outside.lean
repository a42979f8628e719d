import Verif.Link
import Verif.GhostVm
/-
Changes of pages that the allocator does not use preserve the invariant.
-/
namespace HM

variable {ro : Ro} {w : World}

/-- A page that the allocator uses. -/
def Ours (o : Owner) : Prop := o ≠ .none ∧ ∀ k, o ≠ .held k

theorem Ours.slab : Ours .slab := ⟨by simp, by simp⟩
theorem Ours.reg {p : Nat} : Ours (.reg p) := ⟨by simp, by simp⟩
theorem Ours.qr {p : Nat} : Ours (.qr p) := ⟨by simp, by simp⟩
theorem Ours.qq {p : Nat} : Ours (.qq p) := ⟨by simp, by simp⟩

/-- The world after a change of pages that the allocator does not use. -/
def World.outside (w : World) (own : Nat → Owner) (vm : Vm) : World := ⟨{ w.σ with vm := vm }, { w.G with own := own }⟩

/-- The change does not concern pages that the allocator uses. -/
structure Outside (w : World) (own : Nat → Owner) (vm : Vm) : Prop where
  same : ∀ pg, Ours (w.G.own pg) → own pg = w.G.own pg
  prot : ∀ pg, Ours (w.G.own pg) → vm.prot pg = w.σ.vm.prot pg
  mem : ∀ x, Ours (w.G.own (x / PAGE)) → vm.mem x = w.σ.vm.mem x
  other : ∀ pg, ¬ Ours (w.G.own pg) → ¬ Ours (own pg)
  mapped : ∀ pg, ¬ Ours (w.G.own pg) → own pg ≠ .none → vm.prot pg ≠ .unmapped

theorem Outside.own_iff {own : Nat → Owner} {vm : Vm} (o : Outside w own vm) {pg : Nat} {x : Owner} (hx : Ours x) : own pg = x ↔ w.G.own pg = x := by
  by_cases k : Ours (w.G.own pg)
  · rw [o.same pg k]
  · exact ⟨fun e => absurd (e ▸ hx) (o.other pg k), fun e => absurd (e ▸ hx) k⟩

theorem Outside.class_ours (hro : RoOk ro) (hi : GInv ro w) {a c x : Nat} (ha : a < ro.g.nArena) (hc : c < nClasses ro.g)
    (hx : inRange (ro.regionStart a c) (ro.g.metaMax c * ro.g.slabSize c) x) : Ours (w.G.own (x / PAGE)) := by
  rw [(hi.slabOwn _).mpr (class_region_slab hro ha hc hx)]; exact Ours.slab

theorem Outside.inv (hro : RoOk ro) {own : Nat → Owner} {vm : Vm} (o : Outside w own vm) (hi : GInv ro w) : GInv ro (w.outside own vm) := by
  have hreg : ∀ r pg, w.σ.rt.Has r → inPages (r.p - r.guard) (pageUp (w.G.effSize r) + 2 * r.guard) pg → vm.prot pg = w.σ.vm.prot pg :=
    fun r pg hr hp => o.prot pg (by rw [(hi.regOwn pg r.p).mpr ⟨r, hr, rfl, hp⟩]; exact Ours.reg)
  refine ⟨hi.cls, fun a c ha hc => ?_, fun pg hpg hx => ?_, hi.rt, hi.reg, fun pg => (o.own_iff Ours.slab).trans (hi.slabOwn pg),
    fun pg p => (o.own_iff Ours.reg).trans (hi.regOwn pg p), fun r pg hr hx => ?_, fun r pg hr hx => ?_, fun r pg hr hx => ?_,
    fun pg i => (o.own_iff Ours.qr).trans (hi.qrOwn pg i), fun pg i => (o.own_iff Ours.qq).trans (hi.qqOwn pg i), hi.qrOk, hi.qqOk, hi.qi,
    fun pg hpg => ?_, hi.blk, hi.eff, hi.cache, fun hc pg i ho => ?_⟩
  · obtain ⟨P, E, Fl, hinv⟩ := hi.cls a c ha hc
    exact SCVm.congrVm hc hinv (hi.clsVm a c ha hc) (fun x hx => o.prot _ (Outside.class_ours hro hi ha hc hx)) (fun x hx _ => o.mem _ (Outside.class_ours hro hi ha hc hx))
  · have hpg : w.G.own pg = .slab := (o.own_iff Ours.slab).mp hpg
    exact (o.prot pg (by rw [hpg]; exact Ours.slab)).trans (hi.gaps pg hpg hx)
  · have k := hi.reg r hr
    refine (hreg r pg hr ?_).trans (hi.regRw r pg hr hx)
    have := k.lo; have := k.gmod; have := k.pmod
    try rw [show (w.outside own vm).G.effSize r = w.G.effSize r from rfl] at hx
    unfold pageUp inPages at *; omega
  · have k := hi.reg r hr
    refine (hreg r pg hr ?_).trans (hi.regLo r pg hr hx)
    have := k.lo; have := k.gmod; have := k.pmod
    try rw [show (w.outside own vm).G.effSize r = w.G.effSize r from rfl] at hx
    unfold pageUp inPages at *; omega
  · have k := hi.reg r hr
    refine (hreg r pg hr ?_).trans (hi.regHi r pg hr hx)
    have := k.lo; have := k.gmod; have := k.pmod
    try rw [show (w.outside own vm).G.effSize r = w.G.effSize r from rfl] at hx
    unfold pageUp inPages at *; omega
  · by_cases k : Ours (w.G.own pg)
    · show vm.prot pg ≠ _
      rw [o.prot pg k]
      exact hi.mapped pg k.1
    · exact o.mapped pg k hpg
  · have ho' : w.G.own pg = .qr i ∨ w.G.own pg = .qq i := ho.imp (o.own_iff Ours.qr).mp (o.own_iff Ours.qq).mp
    show vm.prot pg ≠ _
    rw [o.prot pg (by rcases ho' with e | e <;> rw [e]; exacts [Ours.qr, Ours.qq])]
    exact hi.qprot hc pg i ho'

/-- The bytes of a block are in pages that the allocator uses. -/
theorem Outside.keep (hro : RoOk ro) {own : Nat → Owner} {vm : Vm} (o : Outside w own vm) (hi : GInv ro w) (p : Nat) : KeepB ro w (w.outside own vm) p := by
  refine ⟨rfl, fun a c i k hs => ⟨hs, rfl, fun x hx => o.mem x ?_⟩, fun sz gd hr => ⟨hr, rfl, fun x hx => o.mem x ?_⟩⟩
  · rw [hs.own hro hi hx]; exact Ours.slab
  · have k := hi.reg _ hr
    rw [(hi.regOwn _ p).mpr ⟨_, hr, rfl, ?_⟩]
    · exact Ours.reg
    · have := k.lo; have := k.gmod; have := k.pmod
      unfold inRange pageUp inPages at *
      simp only at *
      omega

theorem Outside.linked (hro : RoOk ro) {L : Nat → Option Info} {own : Nat → Owner} {vm : Vm} (o : Outside w own vm) (l : Linked ro L w) :
    Linked ro L (w.outside own vm) :=
  ⟨o.inv hro l.inv, ⟨l.stat.small, l.stat.large⟩, l.blk, l.eff, fun p i hp => (l.sized p i hp).keep (o.keep hro l.inv p)⟩

theorem Outside.content (hro : RoOk ro) {own : Nat → Owner} {vm : Vm} (o : Outside w own vm) (hi : GInv ro w) (h : Content ro w) :
    Content ro (w.outside own vm) := by
  intro a c ha hc i k h1 h2 h3
  obtain ⟨c1, c2⟩ := h a c ha hc i k h1 h2 h3
  have hsz := (classGeo ro.g hc).size_ge
  have hin : ∀ x, inRange (slotAddr ro.g (ro.regionStart a c) c i k) (ro.g.slotSize c) x → vm.mem x = w.σ.vm.mem x := fun x hx =>
    o.mem x (Outside.class_ours hro hi ha hc (slab_of_slab hc h1 (slot_range_slab hc h2 hx)))
  refine ⟨fun q1 q2 x hx => ?_, fun q1 q2 => ?_⟩
  · exact (hin x (by unfold inRange at *; omega)).trans (c1 q1 q2 x hx)
  · exact (c2 q1 q2).congr fun j hj => hin _ (by unfold inRange; omega)

/-- Nothing is due earlier or later. -/
theorem Outside.delay {own : Nat → Owner} {vm : Vm} (o : Outside w own vm) : Delay ro w (w.outside own vm) := by
  refine ⟨fun _ _ => Nat.le_refl _, fun _ _ _ _ => Nat.le_refl _, fun _ _ _ _ _ _ => Nat.le_add_right _ _, Nat.le_refl _, fun pg => ?_, rfl⟩
  by_cases k : Ours (w.G.own pg)
  · have : (w.outside own vm).G.own pg = w.G.own pg := o.same pg k
    unfold pageDelay
    rw [this]
    exact Nat.le_add_right _ _
  · have : pageDelay ro.g w pg = 0 := by
      unfold pageDelay
      split
      · rename_i e; exact absurd (e ▸ Ours.qr) k
      · rename_i e; exact absurd (e ▸ Ours.qq) k
      · rfl
    omega


/-- A change that concerns only pages held by `f`. -/
theorem Outside.trans (hro : RoOk ro) {own : Nat → Owner} {vm : Vm} (o : Outside w own vm) (hi : GInv ro w) {f : Nat}
    (h : ∀ t, t ≠ f → ∀ pg, (own pg = .held t ↔ w.G.own pg = .held t) ∧ (w.G.own pg = .held t → vm.prot pg = w.σ.vm.prot pg ∧
      ∀ x, x / PAGE = pg → vm.mem x = w.σ.vm.mem x)) : Trans ro (fun o => o ≠ .thr f) w (w.outside own vm) := by
  refine ⟨o.inv hro hi, fun hd h0 hf => ⟨⟨fun p => Iff.rfl, fun p a c i k hb hs => (o.keep hro hi p).small a c i k hs, fun r hb hr => (o.keep hro hi r.p).large r.size r.guard hr⟩, ?_, ?_, ?_⟩,
    o.content hro hi, fun k => ⟨k.small, k.large⟩, o.delay⟩
  · rintro t rfl pg
    exact (h t (fun e => hf (by rw [e])) pg).1
  · rintro t rfl pg ho
    exact ((h t (fun e => hf (by rw [e])) pg).2 ho).1
  · rintro t rfl x ho
    exact ((h t (fun e => hf (by rw [e])) _).2 ho).2 x rfl

end HM
