import Verif.SmallAlloc
/-
The four branches of `allocateSmall`.
-/
namespace HM

theorem SC.statsAlloc_eq (g : Cfg) (c : SC) (n : Nat) : c.statsAlloc g n =
    { c with allocated := (if g.stats then add64 c.allocated n else c.allocated),
             nmalloc := (if g.stats then add64 c.nmalloc 1 else c.nmalloc) } := by
  unfold SC.statsAlloc; split <;> rfl

theorem SC.statsSlabAlloc_eq (g : Cfg) (c : SC) (n : Nat) : c.statsSlabAlloc g n =
    { c with slabAllocated := (if g.stats then add64 c.slabAllocated n else c.slabAllocated) } := by
  unfold SC.statsSlabAlloc; split <;> rfl

theorem SC.statsSlabDealloc_eq (g : Cfg) (c : SC) (n : Nat) : c.statsSlabDealloc g n =
    { c with slabAllocated := (if g.stats then sub64 c.slabAllocated n else c.slabAllocated) } := by
  unfold SC.statsSlabDealloc; split <;> rfl

theorem SC.statsDealloc_eq (g : Cfg) (c : SC) (n : Nat) : c.statsDealloc g n =
    { c with allocated := (if g.stats then sub64 c.allocated n else c.allocated),
             ndalloc := (if g.stats then add64 c.ndalloc 1 else c.ndalloc) } := by
  unfold SC.statsDealloc; split <;> rfl

theorem Loc.set_self {loc : Nat → Loc} {m : Nat} {v : Loc} (h : loc m = v) : Loc.set loc m v = loc := by
  funext i; unfold Loc.set; split
  · rename_i e; rw [e, h]
  · rfl

theorem canarySize_cases (g : Cfg) : (g.slabCanary = true ∧ g.canarySize = 8) ∨ (g.slabCanary = false ∧ g.canarySize = 0) := by
  unfold Cfg.canarySize
  cases g.slabCanary <;> simp

section
variable {g : Cfg} {base cls : Nat}

/-- The invariant after slot `k` of slab `m` has been marked used, given the new lists. -/
theorem SCInv.took {c1 c c' : SC} {loc : Nat → Loc} {ql : Nat → Nat → QLoc} {m k : Nat}
    {v : Loc} {P' E' F' : List Nat} (hb : Bits g cls c1 loc) (hm : loc m ≠ .fresh)
    (hco : ∀ i, i ≠ m → CountOk (g.slots cls) (loc i) (c1.slabs i).count)
    (hq : QArr g base cls c ql) (hqc : ∀ i b, c1.used i b = c.used i b) (hqq : ∀ i b, c1.quar i b = c.quar i b)
    (hnt : ∀ i k, ql i k ≠ .transit)
    (hl : Lists g c' P' E' F' (Loc.set loc m v)) (het : c'.emptyTotal = E'.length * g.slabSize cls)
    (hv : v ≠ .fresh) (hcv : CountOk (g.slots cls) v ((c1.slabs m).count + 1))
    (hk : k < g.slots cls) (hf : c1.used m k = false)
    (hs : ∀ i, i ≠ m → (c'.slabs i).bitmap = (c1.slabs i).bitmap ∧ (c'.slabs i).count = (c1.slabs i).count ∧
      (c'.slabs i).qbitmap = (c1.slabs i).qbitmap)
    (hz : ∀ i, i ≠ m → ¬ c1.Active g i → c'.slabs i = c1.slabs i)
    (ht : SlabTook (c1.slabs m) (c'.slabs m) k)
    (e1 : c'.metaCount = c1.metaCount) (e2 : c'.metaAllocated = c1.metaAllocated) (e3 : c'.metaUnguarded = c1.metaUnguarded)
    (e4 : c'.qrand = c.qrand) (e5 : c'.qqueue = c.qqueue) (e6 : c'.qidx = c.qidx) :
    SCInv g base cls c' P' E' F' (Loc.set loc m v) ql where
  lists := hl
  etot := het
  bits := hb.take hm hv hk hf (fun i hi => ⟨(hs i hi).1, (hs i hi).2.1⟩) hz ht e1 e2 e3
  cntOk := fun i => by
    by_cases hi : i = m
    · subst hi; rw [Loc.set_same, ht.cnt]; exact hcv
    · rw [Loc.set_ne hi, (hs i hi).2.1]; exact hco i hi
  qarr := hq.congr (fun i b hu => by
      rw [← hqc] at hu
      unfold SC.used at hu ⊢
      by_cases hi : i = m
      · subst hi; rw [ht.bm, Bitmap.bit_set, hu]; simp
      · rw [(hs i hi).1]; exact hu)
    (fun i b => by
      rw [← hqq]
      unfold SC.quar
      by_cases hi : i = m
      · subst hi; rw [ht.qbm]
      · rw [(hs i hi).2.2]) e4 e5 e6
  notransit := hnt

theorem used_took {c1 c' : SC} {m k : Nat} (hs : ∀ i, i ≠ m → (c'.slabs i).bitmap = (c1.slabs i).bitmap)
    (ht : SlabTook (c1.slabs m) (c'.slabs m) k) (a b : Nat) :
    c'.used a b = (c1.used a b || (decide (a = m) && decide (b = k))) := by
  unfold SC.used
  by_cases ha : a = m
  · subst ha; rw [ht.bm, Bitmap.bit_set, Bool.or_comm]; simp
  · rw [hs a ha]; simp [ha]

theorem quar_took {c1 c' : SC} {m k : Nat} (hs : ∀ i, i ≠ m → (c'.slabs i).qbitmap = (c1.slabs i).qbitmap)
    (ht : SlabTook (c1.slabs m) (c'.slabs m) k) (a b : Nat) : c'.quar a b = c1.quar a b := by
  unfold SC.quar
  by_cases ha : a = m
  · subst ha; rw [ht.qbm]
  · rw [hs a ha]

/-- Memory effect when the slab was accessible already. -/
theorem takenVm_rw {tag : Bool} {loc : Nat → Loc} {canary : BitVec 64} {vm vm' : Vm} {i k reqSize : Nat}
    (hcls : cls < nClasses g) (hreq : reqSize = 0 ↔ g.classSize cls = 0) (hl : (loc i).isRw = true)
    (h : Prepared g tag true reqSize (g.slotSize cls) (slotAddr g base cls i k) canary vm vm') :
    TakenVm g tag base cls loc canary vm vm' i k := by
  obtain ⟨h1, h2, h3, h5, h4⟩ := h
  have h0 : reqSize ≠ 0 ↔ g.classSize cls ≠ 0 := not_congr hreq
  constructor
  · intro x hx; exact h2 x (fun hh => hx ⟨h0.mp hh.1, hh.2⟩)
  · intro hc hs; exact h3 (h0.mpr hc) hs
  · exact h5
  · intro hc hw x hx
    rcases hw with hw | hw | hw
    · exact h4 (h0.mpr hc) (Or.inl ⟨rfl, hw⟩) x hx
    · rw [hl] at hw; exact absurd hw (by simp)
    · exact h4 (h0.mpr hc) (Or.inr hw) x hx
  · intro pg; rw [h1, if_neg]; rintro ⟨hh, _⟩; rw [hl] at hh; exact absurd hh (by simp)

/-- A slot's canary lies in the slot. -/
theorem canary_in_slot (hcls : cls < nClasses g) {i k x : Nat}
    (h : inRange (slotAddr g base cls i k + g.slotSize cls - 8) 8 x) :
    inRange (slotAddr g base cls i k) (g.slotSize cls) x := by
  have := (classGeo g hcls).size_ge
  unfold inRange at *; omega

theorem scvm_rw {tag : Bool} {loc loc' : Nat → Loc} {canary : BitVec 64} {vm vm' : Vm} {i k : Nat} (hcls : cls < nClasses g)
    (hvm : SCVm g base cls loc vm) (hk : k < g.slots cls) (hl : (loc i).isRw = true)
    (hl' : ∀ a, (loc' a).isRw = (loc a).isRw) (h : TakenVm g tag base cls loc canary vm vm' i k) :
    SCVm g base cls loc' vm' := by
  refine hvm.congr hl' ?_ ?_
  · funext pg; rw [h.prot, if_neg]; rintro ⟨hh, _⟩; rw [hl] at hh; exact absurd hh (by simp)
  · intro x hx
    refine h.mem x ?_
    rintro ⟨hc, ⟨_, hr⟩ | ⟨_, hr⟩⟩
    · exact hx (slot_rw hcls hvm hl hc hk (canary_in_slot hcls hr))
    · exact hx (slot_rw hcls hvm hl hc hk hr)

theorem allocFromPartial_spec {c : SC} {vm : Vm} {e : Errno} {P E F : List Nat} {loc : Nat → Loc} {ql : Nat → Nat → QLoc}
    {reqSize m : Nat} {ch : Choice} (hv : g.Valid) (hcls : cls < nClasses g)
    (hreq : reqSize = 0 ↔ g.classSize cls = 0) (h : SCInv g base cls c P E F loc ql) (hvm : SCVm g base cls loc vm)
    (hm : c.partialHead = some m) :
    AllocPost g base cls ch c vm e loc ql (allocFromPartial g base cls reqSize ch c vm e m) := by
  have G := classGeo g hcls
  obtain ⟨P1, hP⟩ : ∃ P1, P = m :: P1 := by
    have := h.lists.ph; rw [hm] at this
    cases P with
    | nil => simp at this
    | cons a as => simp at this; exact ⟨as, by rw [this]⟩
  have hlm : loc m = .part := (h.lists.pm m).mp (by simp [hP])
  have hcm := h.cntOk m
  rw [hlm] at hcm
  obtain ⟨hc0, hc1⟩ : 0 < (c.slabs m).count ∧ (c.slabs m).count < g.slots cls := hcm
  obtain ⟨k, hk1, hk2, hk3⟩ := takeSlot_spec (g := g) (ch := ch) G.slots_pos G.slots_le (h.bits.cnt m) hc1
  have hsl := setUsed_slab c m k (by have := G.slots_le; omega)
  have hso : ∀ i, i ≠ m → (c.setUsed m k).slabs i = c.slabs i := fun i hi => setUsed_other c k hi
  have hrw : (loc m).isRw = true := by rw [hlm]; rfl
  unfold allocFromPartial
  simp only [hk1, Res.bind_ok]
  generalize hc2 : (if (!(c.setUsed m k).hasFreeSlots (g.slots cls) m) = true then _ else c.setUsed m k) = c2
  have hp := prepareSlot_spec (g := g) (tag := tagging g ch) (check := true) (reqSize := reqSize) (size := g.slotSize cls)
    (p := slotAddr g base cls m k) (canary := (c2.slabs m).canary) (vm := vm) (tagging_ok hv) G.size_ge (by have := G.size_mod; omega)
    (fun h0 x hx => slot_rw hcls hvm hrw (fun hz => h0 (hreq.mpr hz)) hk2 hx)
  rw [show slotPointer (g.slotSize cls) (slabAddr base (g.slabSize cls) m) k = slotAddr g base cls m k from rfl]
  -- the metadata
  have hmeta : ∃ v P', (v = Loc.part ∨ v = Loc.out) ∧ SCInv g base cls (c2.statsAlloc g (g.slotSize cls)) P' E F (Loc.set loc m v) ql ∧
      Taken g cls c (c2.statsAlloc g (g.slotSize cls)) m k ∧ c2.slabAllocated = c.slabAllocated ∧ (v.isRw = true) := by
    have hfinish : ∀ v P', (v = Loc.part ∨ v = Loc.out) → CountOk (g.slots cls) v ((c.slabs m).count + 1) →
        Lists g c2 P' E F (Loc.set loc m v) → c2.emptyTotal = c.emptyTotal →
        (∀ i, ∃ pr, c2.slabs i = { (c.setUsed m k).slabs i with prev := pr }) →
        (∀ i, loc i ≠ .part → c2.slabs i = (c.setUsed m k).slabs i) →
        c2.metaCount = c.metaCount → c2.metaAllocated = c.metaAllocated → c2.metaUnguarded = c.metaUnguarded →
        c2.qrand = c.qrand → c2.qqueue = c.qqueue → c2.qidx = c.qidx → c2.allocated = c.allocated →
        c2.nmalloc = c.nmalloc → c2.ndalloc = c.ndalloc →
        SCInv g base cls (c2.statsAlloc g (g.slotSize cls)) P' E F (Loc.set loc m v) ql ∧
        Taken g cls c (c2.statsAlloc g (g.slotSize cls)) m k := by
      intro v P' hv hcv hl f1 f2 f2' f3 f4 f5 f6 f7 f8 f9 f10 f11
      rw [SC.statsAlloc_eq]
      have ht : SlabTook (c.slabs m) (c2.slabs m) k := by
        obtain ⟨pr, hpr⟩ := f2 m
        rw [hpr, hsl]
        exact ⟨rfl, rfl, rfl⟩
      have hs : ∀ i, i ≠ m → ∃ pr, c2.slabs i = { c.slabs i with prev := pr } := fun i hi => by
        obtain ⟨pr, hpr⟩ := f2 i
        rw [hso i hi] at hpr
        exact ⟨pr, hpr⟩
      have hs1 : ∀ i, i ≠ m → (c2.slabs i).bitmap = (c.slabs i).bitmap ∧ (c2.slabs i).count = (c.slabs i).count ∧
          (c2.slabs i).qbitmap = (c.slabs i).qbitmap := fun i hi => by
        obtain ⟨pr, hpr⟩ := hs i hi
        rw [hpr]; exact ⟨rfl, rfl, rfl⟩
      refine ⟨?_, ?_⟩
      · refine SCInv.took (c1 := c) (c := c) h.bits (by rw [hlm]; simp) (fun i _ => h.cntOk i) h.qarr (fun _ _ => rfl)
          (fun _ _ => rfl) h.notransit (hl.congr ⟨fun _ => rfl, fun _ => rfl, rfl, rfl, rfl, rfl, rfl⟩) ?_ ?_ hcv hk2 hk3 hs1 ?_ ht
          f3 f4 f5 f6 f7 f8
        · exact f1.trans h.etot
        · rcases hv with rfl | rfl <;> simp
        · intro i hi hna
          have : loc i = .fresh := (h.bits.fresh i).mpr hna
          show c2.slabs i = c.slabs i
          rw [f2' i (by rw [this]; simp), hso i hi]
      · refine ⟨hk2, (h.lt_max (by rw [hlm]; simp)).2, hk3, used_took (fun i hi => (hs1 i hi).1) ht,
          quar_took (fun i hi => (hs1 i hi).2.2) ht, ?_, f6, f7, f8, ?_, ?_, f11⟩
        · intro a _
          by_cases ha : a = m
          · subst ha
            obtain ⟨pr, hpr⟩ := f2 a
            show (c2.slabs a).canary = _
            rw [hpr, hsl]
          · obtain ⟨pr, hpr⟩ := hs a ha
            show (c2.slabs a).canary = _
            rw [hpr]
        · show (if _ then _ else _) = _
          rw [f9]
        · show (if _ then _ else _) = _
          rw [f10]
    have hcnt1 : ((c.setUsed m k).slabs m).count = (c.slabs m).count + 1 := by rw [hsl]
    by_cases hfree : (c.slabs m).count + 1 < g.slots cls
    · have hc2' : c2 = c.setUsed m k := by
        rw [← hc2, if_neg]
        unfold SC.hasFreeSlots
        rw [hcnt1]; simp [hfree]
      subst hc2'
      refine ⟨.part, P, Or.inl rfl, ?_⟩
      have := hfinish .part P (Or.inl rfl) ⟨by omega, hfree⟩ ?_ rfl (fun i => ⟨_, rfl⟩) (fun _ _ => rfl) rfl rfl rfl rfl rfl rfl
        rfl rfl rfl
      · exact ⟨this.1, this.2, rfl, rfl⟩
      · rw [Loc.set_self hlm]
        refine h.lists.congr ⟨?_, ?_, rfl, rfl, rfl, rfl, rfl⟩
        all_goals
          intro i
          by_cases hi : i = m
          · subst hi; rw [hsl]
          · rw [hso i hi]
    · have heq : (c.slabs m).count + 1 = g.slots cls := by omega
      rw [if_pos (by unfold SC.hasFreeSlots; rw [hcnt1]; simp; omega)] at hc2
      have hnext : (c.slabs m).next = P1.head? := by
        have := h.lists.pd; rw [hP] at this; exact this.2.1
      have hn1 : ((c.setUsed m k).slabs m).next = P1.head? := by rw [hsl]; exact hnext
      rw [hn1] at hc2
      have hnd := h.lists.pn
      rw [hP] at hnd
      have hmP1 : m ∉ P1 := (List.nodup_cons.mp hnd).1
      have hsl2 : ∀ i, c2.slabs i = if P1.head? = some i then { (c.setUsed m k).slabs i with prev := none }
          else (c.setUsed m k).slabs i := by
        intro i
        rw [← hc2]
        unfold SC.setPrev
        cases hh : P1.head? with
        | none => simp
        | some a =>
          simp only [SC.upd]
          by_cases hia : i = a
          · subst hia; simp
          · simp [hia, Ne.symm hia]
      have hphd : c2.partialHead = P1.head? := by
        rw [← hc2]; unfold SC.setPrev; cases P1.head? <;> rfl
      have hfields : c2.emptyTotal = c.emptyTotal ∧ c2.emptyHead = c.emptyHead ∧ c2.freeHead = c.freeHead ∧
          c2.freeTail = c.freeTail ∧ c2.freeQ = c.freeQ ∧ c2.metaCount = c.metaCount ∧ c2.metaAllocated = c.metaAllocated ∧
          c2.metaUnguarded = c.metaUnguarded ∧ c2.qrand = c.qrand ∧ c2.qqueue = c.qqueue ∧ c2.qidx = c.qidx ∧
          c2.allocated = c.allocated ∧ c2.nmalloc = c.nmalloc ∧ c2.ndalloc = c.ndalloc ∧
          c2.slabAllocated = c.slabAllocated := by
        rw [← hc2]; unfold SC.setPrev
        cases P1.head? <;> exact ⟨rfl, rfl, rfl, rfl, rfl, rfl, rfl, rfl, rfl, rfl, rfl, rfl, rfl, rfl, rfl⟩
      obtain ⟨f1, f2, f3, f4, f5, f6, f7, f8, f9, f10, f11, f12, f13, f14, f15⟩ := hfields
      refine ⟨.out, P1, Or.inr rfl, ?_⟩
      have := hfinish .out P1 (Or.inr rfl) heq ?_ f1 ?_ ?_ f6 f7 f8 f9 f10 f11 f12 f13 f14
      · exact ⟨this.1, this.2, f15, rfl⟩
      · refine Lists.removePartial (l1 := []) (l2 := P1) h.lists (by simpa using hP) (by simpa using hphd) ?_ ?_ f2 f3 f4 f5
        · intro i hi
          rw [hsl2 i]
          by_cases hh : P1.head? = some i
          · simp [hh]
          · simp [hh, hso i hi]
        · intro i hi
          rw [hsl2 i]
          by_cases hh : P1.head? = some i
          · simp [hh, hso i hi]
          · simp [hh, hso i hi]
      · intro i
        rw [hsl2 i]
        by_cases hh : P1.head? = some i
        · exact ⟨none, by simp [hh]⟩
        · exact ⟨((c.setUsed m k).slabs i).prev, by simp [hh]⟩
      · intro i hi
        rw [hsl2 i, if_neg]
        intro hh
        exact hi ((h.lists.pm i).mp (by rw [hP]; simp [List.mem_of_mem_head? hh]))
  obtain ⟨v, P', hvp, hinv, htk, hsa, hvrw⟩ := hmeta
  have hcan : ((c2.statsAlloc g (g.slotSize cls)).slabs m).canary = (c2.slabs m).canary := by rw [SC.statsAlloc_eq]
  cases hprep : prepareSlot g (tagging g ch) true reqSize (g.slotSize cls) (slotAddr g base cls m k) (c2.slabs m).canary vm with
  | ok vm' =>
    rw [hprep] at hp
    simp only [Res.bind_ok]
    have htv := takenVm_rw (base := base) hcls hreq hrw hp
    refine ⟨rfl, m, k, v, rfl, hvp, ⟨P', E, F, hinv⟩, ?_, htk, ?_, ?_⟩
    · refine scvm_rw hcls hvm hk2 hrw ?_ htv
      intro a
      by_cases ha : a = m
      · subst ha; rw [Loc.set_same, hvrw, hrw]
      · rw [Loc.set_ne ha]
    · rw [hcan]; exact htv
    · rw [if_neg (by rintro ⟨_, hh⟩; rw [hrw] at hh; exact absurd hh (by simp)), SC.statsAlloc_eq]
      exact hsa
  | fatal msg =>
    rw [hprep] at hp
    simp only [Res.bind_fatal]
    obtain ⟨_, h0, h1, h2, x, h3, h4⟩ := hp
    exact Or.inr ⟨h1, h2, fun hz => h0 (hreq.mpr hz), m, k, x, hk2, hrw, hk3, h3, h4⟩
  | segv => rw [hprep] at hp; exact hp
  | ub w => rw [hprep] at hp; exact hp
  | hang => rw [hprep] at hp; exact hp

end
end HM
