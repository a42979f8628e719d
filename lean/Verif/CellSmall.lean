import Verif.CellLemmas
import Verif.SmallAllocSpec
import Verif.SmallFreeSpec
import Verif.SmallTrim
/-
The sections of the slab allocator do the same on memories that differ only in pages outside the slabs of the class, and in
bytes that are outside of them or in use by others.
-/
namespace HM

section
variable {g : Cfg} {base cls : Nat} {P B : Nat → Prop} {ν vm : Vm}

/-- The pages in `P` and the bytes in `B` are of no interest to a section of the class. -/
structure Avoid (g : Cfg) (base cls : Nat) (c : SC) (fr : Option Nat) (P B : Nat → Prop) : Prop where
  prot : ∀ pg, inPages base (g.metaMax cls * g.slabSize cls) pg → ¬ P pg
  mem : ∀ x, inRange base (g.metaMax cls * g.slabSize cls) x → ¬ InUse g base cls c fr x → ¬ B x

section
variable {c : SC} {fr : Option Nat}

theorem slab_range {m x : Nat} (hm : m < g.metaMax cls) (hx : inRange (slabAddr base (g.slabSize cls) m) (g.slabSize cls) x) :
    inRange base (g.metaMax cls * g.slabSize cls) x := by
  have : (m + 1) * g.slabSize cls ≤ g.metaMax cls * g.slabSize cls := Nat.mul_le_mul_right _ hm
  rw [Nat.add_mul, Nat.one_mul] at this
  unfold inRange slabAddr at *
  omega

theorem slab_range_pages {m pg : Nat} (hm : m < g.metaMax cls) (hx : inPages (slabAddr base (g.slabSize cls) m) (g.slabSize cls) pg) :
    inPages base (g.metaMax cls * g.slabSize cls) pg := by
  have : (m + 1) * g.slabSize cls ≤ g.metaMax cls * g.slabSize cls := Nat.mul_le_mul_right _ hm
  rw [Nat.add_mul, Nat.one_mul] at this
  unfold inPages slabAddr at *
  have h1 : base / PAGE ≤ (base + m * g.slabSize cls) / PAGE := Nat.div_le_div_right (Nat.le_add_right _ _)
  have h2 : (base + m * g.slabSize cls + g.slabSize cls + 4095) / PAGE ≤ (base + g.metaMax cls * g.slabSize cls + 4095) / PAGE :=
    Nat.div_le_div_right (by omega)
  omega

theorem slot_pages_slab (hcls : cls < nClasses g) {m k pg : Nat} (hk : k < g.slots cls)
    (hx : inPages (slotAddr g base cls m k) (g.slotSize cls) pg) : inPages (slabAddr base (g.slabSize cls) m) (g.slabSize cls) pg := by
  have G := classGeo g hcls
  have : (k + 1) * g.slotSize cls ≤ g.slots cls * g.slotSize cls := Nat.mul_le_mul_right _ hk
  rw [Nat.add_mul, Nat.one_mul] at this
  have := G.fits
  unfold inPages slotAddr slotPointer at *
  have h1 : slabAddr base (g.slabSize cls) m / PAGE ≤ (slabAddr base (g.slabSize cls) m + k * g.slotSize cls) / PAGE :=
    Nat.div_le_div_right (Nat.le_add_right _ _)
  have h2 : (slabAddr base (g.slabSize cls) m + k * g.slotSize cls + g.slotSize cls + 4095) / PAGE ≤
      (slabAddr base (g.slabSize cls) m + g.slabSize cls + 4095) / PAGE := Nat.div_le_div_right (by omega)
  omega

theorem Avoid.slabP (h : Avoid g base cls c fr P B) {m : Nat} (hm : m < g.metaMax cls) :
    ∀ pg, inPages (slabAddr base (g.slabSize cls) m) (g.slabSize cls) pg → ¬ P pg :=
  fun _ hp => h.prot _ (slab_range_pages hm hp)

theorem Avoid.slotP (h : Avoid g base cls c fr P B) (hcls : cls < nClasses g) {m k : Nat} (hm : m < g.metaMax cls) (hk : k < g.slots cls) :
    ∀ pg, inPages (slotAddr g base cls m k) (g.slotSize cls) pg → ¬ P pg :=
  fun _ hp => h.slabP hm _ (slot_pages_slab hcls hk hp)

theorem Avoid.slabB (h : Avoid g base cls c fr P B) {loc : Nat → Loc} (hbits : Bits g cls c loc) (hb : BaseOk g base) (hcls : cls < nClasses g) {m : Nat}
    (hm : m < g.metaMax cls) (hl : ∀ k, c.live m k = true → fr = some (slotAddr g base cls m k)) :
    ∀ x, inPages (slabAddr base (g.slabSize cls) m) (g.slabSize cls) (x / PAGE) → ¬ B x := by
  intro x hx
  have hx := (slab_pages hb hcls m x).mp hx
  refine h.mem x (slab_range hm hx) ?_
  rintro ⟨i, k, hlv, hne, _, hr⟩
  have hu : c.used i k = true := by unfold SC.live at hlv; simp at hlv; exact hlv.1
  have hr' : inRange (slotAddr g base cls i k) (g.slotSize cls) x := by unfold inRange at *; omega
  have := slab_disjoint hcls (slot_range_slab hcls (hbits.used_lt hu) hr') hx
  subst this
  exact hne (hl k hlv)

theorem Avoid.slotB (h : Avoid g base cls c fr P B) {loc : Nat → Loc} (hbits : Bits g cls c loc) (hcls : cls < nClasses g) {m k : Nat}
    (hm : m < g.metaMax cls) (hk : k < g.slots cls) (hl : c.live m k = true → fr = some (slotAddr g base cls m k)) :
    ∀ x, inRange (slotAddr g base cls m k) (g.slotSize cls) x → ¬ B x := by
  intro x hx
  refine h.mem x (slab_range hm (slot_range_slab hcls hk hx)) ?_
  rintro ⟨i, j, hlv, hne, _, hr⟩
  have hu : c.used i j = true := by unfold SC.live at hlv; simp at hlv; exact hlv.1
  have hr' : inRange (slotAddr g base cls i j) (g.slotSize cls) x := by unfold inRange at *; omega
  obtain ⟨rfl, rfl⟩ := slot_disjoint hcls (hbits.used_lt hu) hk hr' hx
  exact hne (hl hlv)

/-- The bytes of the canary are used by the section, also those of live slots. -/
theorem Avoid.canaryB (h : Avoid g base cls c fr P B) {loc : Nat → Loc} (hbits : Bits g cls c loc) (hcls : cls < nClasses g) {m k : Nat}
    (hm : m < g.metaMax cls) (hk : k < g.slots cls) :
    ∀ x, g.slabCanary = true → inRange (slotAddr g base cls m k + g.slotSize cls - 8) 8 x → ¬ B x := by
  intro x hcan hx
  have G := classGeo g hcls
  have hs := G.size_ge
  have hx' : inRange (slotAddr g base cls m k) (g.slotSize cls) x := by unfold inRange at *; omega
  refine h.mem x (slab_range hm (slot_range_slab hcls hk hx')) ?_
  rintro ⟨i, j, hlv, hne, _, hr⟩
  have hu : c.used i j = true := by unfold SC.live at hlv; simp at hlv; exact hlv.1
  have hr' : inRange (slotAddr g base cls i j) (g.slotSize cls) x := by unfold inRange at *; omega
  obtain ⟨rfl, rfl⟩ := slot_disjoint hcls (hbits.used_lt hu) hk hr' hx'
  have : g.canarySize = 8 := by unfold Cfg.canarySize; simp [hcan]
  unfold inRange at *
  omega

end

/-- The memory in a result of the slab allocator is patched, the rest is the same. -/
def PatchA {α : Type} (P B : Nat → Prop) (ν : Vm) (r r' : α × SC × Vm × Errno) : Prop :=
  r'.1 = r.1 ∧ r'.2.1 = r.2.1 ∧ r'.2.2.1 = r.2.2.1.patch P B ν ∧ r'.2.2.2 = r.2.2.2

def PatchF (P B : Nat → Prop) (ν : Vm) (r r' : SC × Vm × Errno) : Prop :=
  r'.1 = r.1 ∧ r'.2.1 = r.2.1.patch P B ν ∧ r'.2.2 = r.2.2

theorem not_live {c : SC} {m k : Nat} (h : c.used m k = false) : ¬ c.live m k = true := by unfold SC.live; simp [h]

theorem Res.bind_congr {α β : Type} {x : Res α} {f f' : α → Res β} (h : ∀ a, x = .ok a → f a = f' a) : (x >>= f) = (x >>= f') := by
  cases x <;> first | exact h _ rfl | rfl

theorem allocTail_patch {c1 : SC} {vm : Vm} {e : Errno} {m k reqSize : Nat} {tag check : Bool} {v : BitVec 64} {o : Option Nat}
    (hcls : cls < nClasses g) (hP : ∀ pg, inPages (slotAddr g base cls m k) (g.slotSize cls) pg → ¬ P pg)
    (hB : ∀ x, inRange (slotAddr g base cls m k) (g.slotSize cls) x → ¬ B x) :
    Res.Rel (PatchA P B ν)
      (prepareSlot g tag check reqSize (g.slotSize cls) (slotAddr g base cls m k) v vm >>= fun vm => .ok (o, c1, vm, e))
      (prepareSlot g tag check reqSize (g.slotSize cls) (slotAddr g base cls m k) v (vm.patch P B ν) >>= fun vm => .ok (o, c1, vm, e)) := by
  have G := classGeo g hcls
  refine Res.Rel.bind (prepareSlot_patch (by have := G.size_mod; omega) G.size_ge hP hB) ?_
  rintro a b - rfl
  exact ⟨rfl, rfl, rfl, rfl⟩

theorem allocateSmall_patch {c : SC} {vm : Vm} {e : Errno} {LP LE LF : List Nat} {loc : Nat → Loc} {ql : Nat → Nat → QLoc} {fr : Option Nat}
    {reqSize : Nat} {ch : Choice} (hv : g.Valid) (hb : BaseOk g base) (hcls : cls < nClasses g)
    (h : SCInv g base cls c LP LE LF loc ql) (ha : Avoid g base cls c fr P B) :
    Res.Rel (PatchA P B ν) (allocateSmall g base cls reqSize ch c vm e) (allocateSmall g base cls reqSize ch c (vm.patch P B ν) e) := by
  have G := classGeo g hcls
  unfold allocateSmall
  cases hp : c.partialHead with
  | some m =>
    have hlm : loc m = .part := by
      have := h.lists.ph; rw [hp] at this
      exact (h.lists.pm m).mp (List.mem_of_mem_head? this.symm)
    have hcm := h.cntOk m
    rw [hlm] at hcm
    have hm := (h.lt_max (i := m) (by rw [hlm]; simp)).2
    obtain ⟨k, hk1, hk2, hk3⟩ := takeSlot_spec (g := g) (ch := ch) G.slots_pos G.slots_le (h.bits.cnt m) hcm.2
    dsimp only [allocFromPartial]
    rw [hk1]
    simp only [Res.bind_ok]
    exact allocTail_patch hcls (ha.slotP hcls hm hk2) (ha.slotB h.bits hcls hm hk2 (fun hl => absurd hl (not_live hk3)))
  | none =>
    cases he : c.emptyHead with
    | some m =>
      have hlm : loc m = .empty := by
        have := h.lists.eh; rw [he] at this
        exact (h.lists.em m).mp (List.mem_of_mem_head? this.symm)
      have hcm : (c.slabs m).count = 0 := by have := h.cntOk m; rw [hlm] at this; exact this
      have hm := (h.lt_max (i := m) (by rw [hlm]; simp)).2
      have hsm : (emptyTaken g cls c m).slabs m = { c.slabs m with next := none, prev := none } := by simp [emptyTaken, SC.upd]
      obtain ⟨k, hk1, hk2, hk3⟩ := takeSlot_spec (g := g) (ch := ch) (c := emptyTaken g cls c m) (m := m) G.slots_pos G.slots_le
        (by rw [hsm]; exact h.bits.cnt m) (by rw [hsm]; have := G.slots_pos; simp only; omega)
      dsimp only
      rw [allocFromEmpty_eq, allocFromEmpty_eq, hk1]
      simp only [Res.bind_ok]
      exact allocTail_patch hcls (ha.slotP hcls hm hk2)
        (ha.slotB h.bits hcls hm hk2 (fun hl => absurd hl (not_live (by unfold SC.used at hk3 ⊢; rw [hsm] at hk3; exact hk3))))
    | none =>
      cases hf : c.freeHead with
      | some m =>
        have hlm : loc m = .free := by
          have := h.lists.fh; rw [hf] at this
          exact (h.lists.fm m).mp (List.mem_of_mem_head? this.symm)
        have hcm : (c.slabs m).count = 0 := by have := h.cntOk m; rw [hlm] at this; exact this
        have hm := (h.lt_max (i := m) (by rw [hlm]; simp)).2
        dsimp only [allocFromFree]
        refine Res.Rel.bind (protectSlab_patch (ha.slabP hm)) ?_
        rintro ⟨v, failed⟩ ⟨v', failed'⟩ - ⟨e1, e2⟩
        dsimp only at e1 e2
        subst e1 e2
        dsimp only
        split
        · exact ⟨rfl, rfl, rfl, rfl⟩
        · have hsm : ((c.setCanaryValue g ch m).takeFreeHead (g.slots cls) m).slabs m =
              { (c.setCanaryValue g ch m).slabs m with next := none, prev := none } := by
            unfold SC.takeFreeHead; dsimp only; split <;> simp [SC.upd]
          obtain ⟨cv, hcv, _⟩ := setCanaryValue_slab (g := g) ch c m m
          rw [hcv] at hsm
          obtain ⟨k, hk1, hk2, hk3⟩ := takeSlot_spec (g := g) (ch := ch) (c := (c.setCanaryValue g ch m).takeFreeHead (g.slots cls) m) (m := m)
            G.slots_pos G.slots_le (by rw [hsm]; exact h.bits.cnt m) (by rw [hsm]; have := G.slots_pos; simp only; omega)
          rw [hk1]
          simp only [Res.bind_ok]
          exact allocTail_patch hcls (ha.slotP hcls hm hk2)
            (ha.slotB h.bits hcls hm hk2 (fun hl => absurd hl (not_live (by unfold SC.used at hk3 ⊢; rw [hsm] at hk3; exact hk3))))
      | none =>
        have hgrow := growMetadata_spec (ch := ch) hv hcls h.bits
        unfold allocFromNew allocMetadata
        cases hg : growMetadata g cls ch c with
        | segv => trivial
        | ub w => exact rfl
        | hang => trivial
        | fatal msg => exact rfl
        | ok o =>
          rw [hg] at hgrow
          cases o with
          | none => exact ⟨rfl, rfl, rfl, rfl⟩
          | some c' =>
            obtain ⟨a, rfl, hlt, hbits⟩ := hgrow
            have hm : c.metaCount < g.metaMax cls := lt_of_lt_of_le hlt hbits.mle
            have hfr : ¬ c.Active g c.metaCount := fun ha => by have := ha.1; omega
            have hz := h.bits.zero _ hfr
            have R : Res.Rel (PatchR P B ν)
              (protectSlab (decide (reqSize ≠ 0)) (ch.sys 1) (slabAddr base (g.slabSize cls) c.metaCount) (g.slabSize cls) vm)
              (protectSlab (decide (reqSize ≠ 0)) (ch.sys 1) (slabAddr base (g.slabSize cls) c.metaCount) (g.slabSize cls) (vm.patch P B ν)) :=
              protectSlab_patch (ha.slabP hm)
            simp only [Res.bind_ok]
            refine Res.Rel.bind (R := PatchA P B ν) (Res.Rel.bind R ?_) ?_
            · rintro ⟨v, failed⟩ ⟨v', failed'⟩ - ⟨e1, e2⟩
              dsimp only at e1 e2
              subst e1 e2
              dsimp only
              split <;> exact ⟨rfl, rfl, rfl, rfl⟩
            · rintro ⟨mo, c1, v1, x1⟩ ⟨mo', c2, v2, x2⟩ hok ⟨e1, e2, e3, e4⟩
              dsimp only at e1 e2 e3 e4
              subst e1 e2 e3 e4
              dsimp only
              cases mo' with
              | none => exact ⟨rfl, rfl, rfl, rfl⟩
              | some m =>
                have hres : m = c.metaCount ∧ c2.slabs = c.slabs := by
                  revert hok
                  cases protectSlab (decide (reqSize ≠ 0)) (ch.sys 1) (slabAddr base (g.slabSize cls) c.metaCount) (g.slabSize cls) vm with
                  | ok r =>
                    simp only [Res.bind_ok]
                    split
                    · intro hh; simp at hh
                    · intro hh
                      simp only [Res.ok.injEq, Prod.mk.injEq, Option.some.injEq] at hh
                      obtain ⟨q1, q2, -, -⟩ := hh
                      refine ⟨q1.symm, ?_⟩
                      rw [← q2]
                      obtain ⟨x, y, hxy⟩ := bumpMetadata_eq (g := g) { c with metaAllocated := a }
                      rw [hxy]
                  | fatal _ => intro hh; exact absurd hh (by simp)
                  | segv => intro hh; exact absurd hh (by simp)
                  | ub _ => intro hh; exact absurd hh (by simp)
                  | hang => intro hh; exact absurd hh (by simp)
                obtain ⟨rfl, hs2⟩ := hres
                obtain ⟨cv, hcv, _⟩ := setCanaryValue_slab (g := g) ch c2 c.metaCount c.metaCount
                rw [hs2] at hcv
                obtain ⟨k, hk1, hk2, hk3⟩ := takeSlot_spec (g := g) (ch := ch) (m := c.metaCount)
                  (c := { c2.setCanaryValue g ch c.metaCount with partialHead := if g.slots cls > 1 then some c.metaCount else none })
                  G.slots_pos G.slots_le (by simp only; rw [hcv]; exact h.bits.cnt _) (by simp only; rw [hcv, hz]; exact G.slots_pos)
                dsimp only
                rw [hk1]
                simp only [Res.bind_ok]
                exact allocTail_patch hcls (ha.slotP hcls hm hk2)
                  (ha.slotB h.bits hcls hm hk2 (fun hl => absurd hl (not_live (by unfold SC.used; rw [hz]; exact Bitmap.bit_zero k))))

theorem releaseSlot_patch {c c1 : SC} {vm : Vm} {e : Errno} {loc loc1 : Nat → Loc} {LP LE LF : List Nat} {ql : Nat → Nat → QLoc}
    {fr : Option Nat} {m k : Nat} {ch : Choice} (hb : BaseOk g base) (hcls : cls < nClasses g)
    (hbits : Bits g cls c loc) (ha : Avoid g base cls c fr P B) (h : SCInv g base cls c1 LP LE LF loc1 ql)
    (hbm : (c1.slabs m).bitmap = (c.slabs m).bitmap) (hu : c1.used m k = true)
    (hl : c.live m k = true → fr = some (slotAddr g base cls m k)) :
    Res.Rel (PatchF P B ν) (releaseSlot g base cls ch c1 vm e m k) (releaseSlot g base cls ch c1 (vm.patch P B ν) e m k) := by
  have G := classGeo g hcls
  have hk := h.bits.used_lt hu
  have hm := (h.bits.used_meta hu).2
  have hcl := count_lt h.bits m
  have hs16 : g.slots cls < 65536 := by have := G.slots_le; omega
  have hcpos : 0 < (c1.slabs m).count := by
    rw [h.bits.cnt m]
    rcases Nat.eq_zero_or_pos (bitCount (c1.slabs m).bitmap (g.slots cls)) with h0 | h0
    · have := (bitCount_zero_iff _ _).mp h0 k hk
      unfold SC.used at hu
      rw [this] at hu; exact absurd hu (by simp)
    · exact h0
  have hcok := h.cntOk m
  have hloc : (loc1 m = .out ∧ (c1.slabs m).count = g.slots cls) ∨ (loc1 m = .part ∧ (c1.slabs m).count < g.slots cls) := by
    cases hlm : loc1 m with
    | fresh => rw [hlm] at hcok; have : (c1.slabs m).count = 0 := hcok; omega
    | out => rw [hlm] at hcok; exact Or.inl ⟨rfl, hcok⟩
    | part => rw [hlm] at hcok; exact Or.inr ⟨rfl, hcok.2⟩
    | empty => rw [hlm] at hcok; have : (c1.slabs m).count = 0 := hcok; omega
    | free => rw [hlm] at hcok; have : (c1.slabs m).count = 0 := hcok; omega
    | quar j => rw [hlm] at hcok; have : (c1.slabs m).count = 0 := hcok; omega
  obtain ⟨P1, hL1, hO1, het1, hsa1⟩ := linkPartial_spec h.lists hloc
  unfold releaseSlot
  dsimp only
  generalize hc2 : c1.linkPartial (g.slots cls) m = c2 at hL1 hO1 het1 hsa1
  have hc1 : (c2.slabs m).count = (c1.slabs m).count := by obtain ⟨n, p, e⟩ := hO1.slabs m; rw [e]
  have hcs := clearUsed_slab c2 m k (by omega) (by omega)
  split
  · rename_i h0
    have h0 : (c1.slabs m).count - 1 = 0 := by
      unfold SC.isFreeSlab at h0
      rw [hcs] at h0
      simpa [hc1] using h0
    have hS : ∀ j, c.live m j = true → fr = some (slotAddr g base cls m j) := by
      intro j hj
      have hju : c.used m j = true := by unfold SC.live at hj; simp at hj; exact hj.1
      have hju1 : (c1.slabs m).bitmap.bit j = true := by rw [hbm]; exact hju
      have hjk : j = k := by
        by_contra hne
        have hclr := bitCount_clear hk hu
        have h1 : bitCount ((c1.slabs m).bitmap.clear k) (g.slots cls) = 0 := by rw [h.bits.cnt m] at h0; omega
        have := (bitCount_zero_iff _ _).mp h1 j (hbits.used_lt hju)
        rw [Bitmap.bit_clear] at this
        simp [hju1, hne] at this
      subst hjk
      exact hl hj
    unfold retireSlab
    dsimp only
    split
    · refine Res.Rel.bind (memoryMapFixed_patch (ha.slabP hm) (ha.slabB hbits hb hcls hm hS)) ?_
      rintro ⟨v, failed⟩ ⟨v', failed'⟩ - ⟨e1, e2⟩
      dsimp only at e1 e2
      subst e1 e2
      dsimp only
      split
      · refine Res.Rel.bind (memoryPurge_patch (ha.slabB hbits hb hcls hm hS)) ?_
        rintro a b - rfl
        exact ⟨rfl, rfl, rfl⟩
      · exact Res.Rel.same fun a _ => ⟨rfl, rfl, rfl⟩
    · exact ⟨rfl, rfl, rfl⟩
  · exact ⟨rfl, rfl, rfl⟩

theorem deallocateSmall_patch {c : SC} {vm : Vm} {e : Errno} {LP LE LF : List Nat} {loc : Nat → Loc} {ql : Nat → Nat → QLoc}
    {p : Nat} {expected : Option Nat} {ch : Choice} (hv : g.Valid) (hb : BaseOk g base) (hcls : cls < nClasses g) (hp : p < W64)
    (h : SCInv g base cls c LP LE LF loc ql) (ha : Avoid g base cls c (some p) P B) :
    Res.Rel (PatchF P B ν) (deallocateSmall g base cls p expected ch c vm e) (deallocateSmall g base cls p expected ch c (vm.patch P B ν) e) := by
  unfold deallocateSmall
  split
  · exact rfl
  rw [SC.statsDealloc_eq]
  generalize hal : (if g.stats = true then sub64 c.allocated (g.slotSize cls) else c.allocated) = al
  generalize hnd : (if g.stats = true then add64 c.ndalloc 1 else c.ndalloc) = nd
  have h0 := h.stats al nd
  generalize hc0 : ({ c with allocated := al, ndalloc := nd } : SC) = c0 at h0 ⊢
  dsimp only
  have hs0 : c0.slabs = c.slabs := by rw [← hc0]
  have hu0 : ∀ a b, c0.used a b = c.used a b := fun a b => by unfold SC.used; rw [hs0]
  have hq0 : ∀ a b, c0.quar a b = c.quar a b := fun a b => by unfold SC.quar; rw [hs0]
  have hfs := findSlot_spec (msg1 := "invalid unaligned free") (msg2 := "double free") hv hb hcls h0.bits hp
  cases hf : findSlot g base cls p c0 "invalid unaligned free" "double free" with
  | segv => trivial
  | ub w => exact rfl
  | hang => trivial
  | fatal msg => exact rfl
  | ok mk =>
    obtain ⟨m, k⟩ := mk
    rw [hf] at hfs
    obtain ⟨hpe, hu⟩ := hfs
    have hk := h0.bits.used_lt hu
    have hm := (h0.bits.used_meta hu).2
    simp only [Res.bind_ok]
    have hS := ha.slotB (m := m) (k := k) h.bits hcls hm hk (fun _ => by rw [hpe])
    have hSP := ha.slotP hcls hm hk
    rw [← hpe] at hS hSP
    refine Res.Rel.bind (scrubSlot_patch (classGeo g hcls).size_ge (fun _ => hSP) (fun _ => hS)) ?_
    rintro v v' - rfl
    have hqs := quarantineSlot_spec (ch := ch) hv hb hcls h0.bits h0.qarr h0.notransit hu
    rw [← hpe] at hqs
    refine Res.Rel.same fun co hco => ?_
    rw [hco] at hqs
    obtain ⟨c1, out⟩ := co
    obtain ⟨hnq, ql', hQ⟩ := hqs
    dsimp only
    cases out with
    | none => exact ⟨rfl, rfl, rfl⟩
    | some mk' =>
      obtain ⟨m', k'⟩ := mk'
      dsimp only
      obtain ⟨qb, hsl, -⟩ := hQ.slabs m'
      obtain ⟨hw1, hw2⟩ := hQ.was m' k' rfl
      refine releaseSlot_patch hb hcls h.bits ha (h0.quarantined hQ) (by rw [hsl, ← hs0]) (by unfold SC.used at *; rw [hsl]; exact hw1) ?_
      intro hlv
      rcases hw2 with hne | ⟨rfl, rfl⟩
      · have := (h0.qarr.bit m' k').mpr hne
        rw [hq0] at this
        unfold SC.live at hlv
        simp [this] at hlv
      · rw [hpe]

theorem memoryCorruptionCheckSmall_patch {c : SC} {vm : Vm} {LP LE LF : List Nat} {loc : Nat → Loc} {ql : Nat → Nat → QLoc} {fr : Option Nat}
    {p : Nat} {tag : Bool} (hv : g.Valid) (hb : BaseOk g base) (hcls : cls < nClasses g) (hp : p < W64) (h : SCInv g base cls c LP LE LF loc ql)
    (ha : Avoid g base cls c fr P B) :
    memoryCorruptionCheckSmall g tag base cls p c (vm.patch P B ν) = memoryCorruptionCheckSmall g tag base cls p c vm := by
  unfold memoryCorruptionCheckSmall
  have hfs := findSlot_spec (msg1 := "invalid unaligned malloc_usable_size") (msg2 := "invalid malloc_usable_size") hv hb hcls h.bits hp
  refine Res.bind_congr fun mk hf => ?_
  obtain ⟨m, k⟩ := mk
  rw [hf] at hfs
  obtain ⟨hpe, hu⟩ := hfs
  have hk := h.bits.used_lt hu
  have hm := (h.bits.used_meta hu).2
  dsimp only
  unfold checkSlotCanary
  have hs := (classGeo g hcls).size_ge
  rw [checkCanary_patch]
  · intro pg hpg
    rw [hpe] at hpg
    exact ha.slotP hcls hm hk pg (by unfold inPages at *; omega)
  · intro x hc hx
    rw [hpe] at hx
    exact ha.canaryB h.bits hcls hm hk x hc hx

/-- Same, with the part of the result that comes before the class. -/
def PatchT (P B : Nat → Prop) (ν : Vm) (r r' : Nat × Option Nat × Bool × SC × Vm × Errno) : Prop :=
  r'.1 = r.1 ∧ r'.2.1 = r.2.1 ∧ r'.2.2.1 = r.2.2.1 ∧ PatchF P B ν r.2.2.2 r'.2.2.2

theorem trimLoop_patch {ch : Choice} :
    ∀ (fuel k : Nat) (t : Bool) (c : SC) (vm : Vm) (e : Errno) (E : List Nat),
      Sll c.slabs E → E.Nodup → (∀ i, c.freeTail = some i → i ∉ E) → (∀ j i, c.freeQ j = some i → i ∉ E) →
      (∀ i, i ∈ E → (∀ pg, inPages (slabAddr base (g.slabSize cls) i) (g.slabSize cls) pg → ¬ P pg) ∧
        ∀ x, inPages (slabAddr base (g.slabSize cls) i) (g.slabSize cls) (x / PAGE) → ¬ B x) →
      Res.Rel (PatchT P B ν) (trimLoop g base cls ch fuel k E.head? t c vm e) (trimLoop g base cls ch fuel k E.head? t c (vm.patch P B ν) e) := by
  intro fuel
  induction fuel with
  | zero => intros; trivial
  | succ n ih =>
    intro k t c vm e E hs hn hft hfq hE
    cases E with
    | nil => exact ⟨rfl, rfl, rfl, rfl, rfl, rfl⟩
    | cons it E =>
      obtain ⟨h1, h2⟩ := List.nodup_cons.mp hn
      simp only [List.head?_cons]
      unfold trimLoop
      refine Res.Rel.bind (memoryMapFixed_patch (hE it (by simp)).1 (hE it (by simp)).2) ?_
      rintro ⟨v, failed⟩ ⟨v', failed'⟩ - ⟨e1, e2⟩
      dsimp only at e1 e2
      subst e1 e2
      dsimp only
      split
      · exact ⟨rfl, rfl, rfl, rfl, rfl, rfl⟩
      · rw [show (c.slabs it).next = E.head? from hs.1, SC.statsSlabDealloc_eq]
        refine Res.Rel.same fun c' hc' => ?_
        unfold enqueueFreeSlab at hc'
        split at hc'
        · exact absurd hc' (by simp)
        have hnot : ∀ i, i ∈ E → i ≠ it := fun i hi e => h1 (e ▸ hi)
        have hsll : ∀ s : Nat → Slab, (∀ i, i ∈ E → (s i).next = (c.slabs i).next) → Sll s E := by
          intro s hs'
          have key : ∀ l : List Nat, (∀ i, i ∈ l → i ∈ E) → Sll c.slabs l → Sll s l := by
            intro l
            induction l with
            | nil => intros; trivial
            | cons a l ihl =>
              intro hl hc
              exact ⟨by rw [hs' a (hl a (by simp))]; exact hc.1, ihl (fun i hi => hl i (by simp [hi])) hc.2⟩
          exact key E (fun _ h => h) hs.2
        have hE' := fun i (hi : i ∈ E) => hE i (by simp [hi])
        have hfq' : ∀ j0 j i, setAt c.freeQ j0 (some it) j = some i → i ∉ E := by
          intro j0 j i hj hi
          unfold setAt at hj
          split at hj
          · cases hj; exact h1 hi
          · exact hfq j i hj (by simp [hi])
        have hft' : ∀ i, c.freeTail = some i → i ∉ E := fun i hi hm => hft i hi (by simp [hm])
        dsimp only [SC.upd] at hc'
        cases hsub : c.freeQ (u16Uniform (ch.u16 k) g.freeSlabsQ) with
        | none =>
          rw [hsub] at hc'
          simp only [Res.ok.injEq] at hc'
          subst hc'
          exact ih _ _ _ _ _ E (hsll _ fun i hi => by simp [hnot i hi]) h2 hft' (hfq' _) hE'
        | some sub =>
          rw [hsub] at hc'
          have hsubE : sub ∉ E := fun hi => hfq _ _ hsub (by simp [hi])
          cases htl : c.freeTail with
          | none =>
            rw [htl] at hc'
            simp only [Res.ok.injEq] at hc'
            subst hc'
            refine ih _ _ _ _ _ E (hsll _ fun i hi => by simp [hnot i hi]) h2 ?_ (hfq' _) hE'
            intro i hi; cases hi; exact hsubE
          | some tl =>
            rw [htl] at hc'
            simp only [Res.ok.injEq] at hc'
            subst hc'
            refine ih _ _ _ _ _ E (hsll _ fun i hi => ?_) h2 ?_ (hfq' _) hE'
            · have : i ≠ tl := fun e => hft' tl htl (e ▸ hi)
              simp [hnot i hi, this]
            · intro i hi; cases hi; exact hsubE

theorem purgeEntries_patch {arr : Nat → Nat} {size : Nat} {ch : Choice} {k0 : Nat}
    (harr : ∀ j, arr j ≠ 0 → ∀ x, inPages (arr j) size (x / PAGE) → ¬ B x) :
    ∀ (n i : Nat) (vm : Vm) (e : Errno),
      Res.Rel (PatchR P B ν) (purgeEntries arr size ch k0 n i vm e) (purgeEntries arr size ch k0 n i (vm.patch P B ν) e) := by
  intro n
  induction n with
  | zero => intro i vm e; exact ⟨rfl, rfl⟩
  | succ n ih =>
    intro i vm e
    unfold purgeEntries
    split
    · exact ih _ _ _
    · rename_i h0
      refine Res.Rel.bind (memoryPurge_patch (harr i h0)) ?_
      rintro a b - rfl
      exact ih _ _ _

theorem trimPurge_patch {c : SC} {vm : Vm} {e : Errno} {ch : Choice} {k0 : Nat}
    (hr : 20480 ≤ g.classSize cls → ∀ j, c.qrand j ≠ 0 → ∀ x, inPages (c.qrand j) (g.classSize cls) (x / PAGE) → ¬ B x)
    (hq : 20480 ≤ g.classSize cls → ∀ j, c.qqueue j ≠ 0 → ∀ x, inPages (c.qqueue j) (g.classSize cls) (x / PAGE) → ¬ B x) :
    Res.Rel (PatchR P B ν) (trimPurge g cls ch k0 c vm e) (trimPurge g cls ch k0 c (vm.patch P B ν) e) := by
  unfold trimPurge
  split
  · rename_i hc
    have hsz : 20480 ≤ g.classSize cls := by
      simp only [Bool.and_eq_true, decide_eq_true_eq] at hc; exact hc.2
    dsimp only
    split
    · exact rfl
    · have second : ∀ r r' : Vm × Errno, PatchR P B ν r r' → Res.Rel (PatchR P B ν)
          (if g.slabQQueue = 0 then Res.ok (r.1, r.2) else purgeEntries c.qqueue (g.classSize cls) ch
            (k0 + shl64 g.slabQRandom (quarantineShift g (g.classSize cls))) (shl64 g.slabQQueue (quarantineShift g (g.classSize cls))) 0 r.1 r.2)
          (if g.slabQQueue = 0 then Res.ok (r'.1, r'.2) else purgeEntries c.qqueue (g.classSize cls) ch
            (k0 + shl64 g.slabQRandom (quarantineShift g (g.classSize cls))) (shl64 g.slabQQueue (quarantineShift g (g.classSize cls))) 0 r'.1 r'.2) := by
        rintro ⟨v, e1⟩ ⟨v', e2⟩ ⟨q1, q2⟩
        dsimp only at q1 q2
        subst q1 q2
        dsimp only
        split
        · exact ⟨rfl, rfl⟩
        · exact purgeEntries_patch (hq hsz) _ _ _ _
      split
      · exact second _ _ ⟨rfl, rfl⟩
      · exact Res.Rel.bind (purgeEntries_patch (hr hsz) _ _ _ _) fun a b _ => second a b
  · exact ⟨rfl, rfl⟩

theorem trimClass_patch {c : SC} {vm : Vm} {e : Errno} {LP LE LF : List Nat} {loc : Nat → Loc} {ql : Nat → Nat → QLoc} {fr : Option Nat}
    {ch : Choice} (hv : g.Valid) (hq0 : 1 ≤ g.freeSlabsQ) (hb : BaseOk g base) (hcls : cls < nClasses g)
    (h : SCInv g base cls c LP LE LF loc ql) (hvm : SCVm g base cls loc vm) (ha : Avoid g base cls c fr P B) :
    Res.Rel (PatchA P B ν) (trimClass g base cls ch c vm e) (trimClass g base cls ch c (vm.patch P B ν) e) := by
  have hlen : LE.length < c.metaCount + 1 := Nat.lt_succ_of_le <| nodup_length_le h.lists.en fun x hx => by
    have hx' : loc x ≠ .fresh := by rw [(h.lists.em x).mp hx]; simp
    have : c.Active g x := by by_contra hc; exact hx' ((h.bits.fresh x).mpr hc)
    exact this.1
  have h' : SCInv g base cls { c with emptyHead := LE.head? } LP LE LF loc ql := by
    have : ({ c with emptyHead := LE.head? } : SC) = c := by rw [← h.lists.eh]
    rw [this]; exact h
  have hloop := trimLoop_spec (ch := ch) hv hq0 hb hcls (c.metaCount + 1) 0 false c vm e LE LF loc hlen h' hvm
  unfold trimClass
  rw [h.lists.eh]
  refine Res.Rel.bind (trimLoop_patch _ _ _ _ _ _ LE h.lists.es h.lists.en ?_ ?_ ?_) ?_
  · intro i hi hm
    have h1 := (h.lists.em i).mp hm
    rw [h.lists.ft] at hi
    have h2 := (h.lists.fm i).mp (List.mem_of_getLast? hi)
    rw [h1] at h2; exact absurd h2 (by simp)
  · intro j i hi hm
    have h1 := (h.lists.em i).mp hm
    have h2 := (h.lists.qm j i).mp hi
    rw [h1] at h2; exact absurd h2 (by simp)
  · intro i hi
    have h1 := (h.lists.em i).mp hi
    have hm := (h.lt_max (i := i) (by rw [h1]; simp)).2
    refine ⟨ha.slabP hm, ha.slabB h.bits hb hcls hm fun k hk => ?_⟩
    have hu : c.used i k = true := by unfold SC.live at hk; simp at hk; exact hk.1
    have hc := h.cntOk i
    rw [h1] at hc
    have hc : (c.slabs i).count = 0 := hc
    rw [h.bits.cnt i] at hc
    have := (bitCount_zero_iff _ _).mp hc k (h.bits.used_lt hu)
    unfold SC.used at hu
    rw [this] at hu; exact absurd hu (by simp)
  · rintro ⟨k, it, t, c1, v1, e1⟩ ⟨k', it', t', c1', v1', e1'⟩ hok ⟨q1, q2, q3, q4, q5, q6⟩
    dsimp only at q1 q2 q3 q4 q5 q6
    subst q1 q2 q3 q4 q5 q6
    rw [hok] at hloop
    obtain ⟨E', F', loc', T, g1, g2, g3, hT, g5, g6⟩ := hloop
    dsimp only
    have hslot : 20480 ≤ g.classSize cls → ∀ i k, ql i k ≠ .none → ∀ x, inPages (slotAddr g base cls i k) (g.classSize cls) (x / PAGE) → ¬ B x := by
      intro hsz i k hne x hx
      have hss : g.classSize cls = g.slotSize cls := by unfold Cfg.slotSize; rw [if_neg (by omega)]
      have hpm := extended_page g hcls hsz
      have hmod : slotAddr g base cls i k % PAGE = 0 := by
        rw [slotAddr_eq, Nat.add_mod, Nat.mul_mod k, hpm]
        have := slab_mod hb hcls i
        unfold slabAddr at this
        simp [this]
      rw [hss] at hx
      have hx := (inPages_addr hmod hpm).mp hx
      have hu := h.qarr.sub i k hne
      refine ha.slotB h.bits hcls (h.bits.used_meta hu).2 (h.bits.used_lt hu) (fun hl => ?_) x hx
      have := (h.qarr.bit i k).mpr hne
      unfold SC.live at hl
      simp [this] at hl
    refine Res.Rel.bind (trimPurge_patch (fun hsz j hj => ?_) (fun hsz j hj => ?_)) ?_
    · have hj : c.qrand j ≠ 0 := by rw [← hT.links.qr]; exact hj
      obtain ⟨i, k, hq⟩ := h.qarr.r2 j hj
      rw [show ({ c1' with emptyHead := it' } : SC).qrand = c.qrand from hT.links.qr, (h.qarr.r1 i k j hq).1]
      exact hslot hsz i k (by rw [hq]; simp)
    · have hj : c.qqueue j ≠ 0 := by rw [← hT.links.qq]; exact hj
      obtain ⟨i, k, hq⟩ := h.qarr.q2 j hj
      rw [show ({ c1' with emptyHead := it' } : SC).qqueue = c.qqueue from hT.links.qq, (h.qarr.q1 i k j hq).1]
      exact hslot hsz i k (by rw [hq]; simp)
    · rintro ⟨v, e2⟩ ⟨v', e3⟩ - ⟨q1, q2⟩
      dsimp only at q1 q2
      subst q1 q2
      exact ⟨rfl, rfl, rfl, rfl⟩

end
end HM
