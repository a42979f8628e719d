import Verif.SmallAllocFresh
/-
The specification of `allocateSmall`.
-/
namespace HM

section
variable {g : Cfg} {base cls : Nat}

theorem setCanaryValue_slab (ch : Choice) (c : SC) (m i : Nat) :
    ∃ v, (c.setCanaryValue g ch m).slabs i = { c.slabs i with canary := v } ∧ (i ≠ m → v = (c.slabs i).canary) := by
  unfold SC.setCanaryValue SC.upd
  by_cases hc : g.slabCanary = true
  · by_cases hi : i = m
    · subst hi; exact ⟨canaryValue g ch.canary, by simp [hc], by simp⟩
    · exact ⟨(c.slabs i).canary, by simp [hc, hi], by simp⟩
  · exact ⟨(c.slabs i).canary, by simp [hc], by simp⟩

theorem setCanaryValue_eq (ch : Choice) (c : SC) (m : Nat) :
    c.setCanaryValue g ch m = { c with slabs := (c.setCanaryValue g ch m).slabs } := by
  unfold SC.setCanaryValue SC.upd
  split <;> rfl

theorem setCanaryValue_inv {c : SC} {P E F : List Nat} {loc : Nat → Loc} {ql : Nat → Nat → QLoc} {m : Nat} {ch : Choice}
    (h : SCInv g base cls c P E F loc ql) (hm : loc m ≠ .fresh) :
    SCInv g base cls (c.setCanaryValue g ch m) P E F loc ql := by
  have hs := setCanaryValue_slab (g := g) ch c m
  refine h.congr ⟨?_, ?_, ?_, ?_, ?_, ?_, ?_⟩ ?_ ?_ ?_ ?_ ?_ ?_ ?_ ?_ ?_
  · intro i; obtain ⟨v, e, _⟩ := hs i; rw [e]
  · intro i; obtain ⟨v, e, _⟩ := hs i; rw [e]
  any_goals rw [setCanaryValue_eq]
  · intro i; obtain ⟨v, e, _⟩ := hs i; rw [e]; exact ⟨rfl, rfl, rfl⟩
  · intro i hi
    obtain ⟨v, e, hv⟩ := hs i
    have him : i ≠ m := fun hh => hm (hh ▸ (h.bits.fresh i).mpr hi)
    rw [e, hv him]

theorem setCanaryValue_same {c : SC} {m : Nat} {ch : Choice} (hc : (c.slabs m).count = 0) :
    SameSlots c (c.setCanaryValue g ch m) := by
  have hs := setCanaryValue_slab (g := g) ch c m
  refine ⟨?_, ?_, ?_, ?_, ?_, ?_, ?_, ?_, ?_, ?_⟩
  · intro a b; unfold SC.used; obtain ⟨v, e, _⟩ := hs a; rw [e]
  · intro a b; unfold SC.quar; obtain ⟨v, e, _⟩ := hs a; rw [e]
  · intro a ha
    obtain ⟨v, e, hv⟩ := hs a
    have : a ≠ m := by rintro rfl; omega
    rw [e, hv this]
  all_goals rw [setCanaryValue_eq]

theorem protectSlab_eq {loc : Nat → Loc} {vm : Vm} {reqSize m : Nat} {sys : SysRes} (hb : BaseOk g base)
    (hcls : cls < nClasses g) (hreq : reqSize = 0 ↔ g.classSize cls = 0) (hvm : SCVm g base cls loc vm)
    (hm : m < g.metaMax cls) (hl : (loc m).isRw = false) :
    protectSlab (reqSize ≠ 0) sys (slabAddr base (g.slabSize cls) m) (g.slabSize cls) vm =
      (if reqSize ≠ 0 ∧ sys = .other then Res.fatal "non-ENOMEM mprotect failure"
        else if reqSize ≠ 0 ∧ sys = .enomem then .ok (vm, true) else .ok (openSlab g base cls m vm, false)) := by
  unfold protectSlab
  rw [protect_slab hb hcls hvm hm hl]
  unfold openSlab
  by_cases h0 : reqSize = 0
  · have := hreq.mp h0
    simp [h0, this]
  · have : g.classSize cls ≠ 0 := fun hz => h0 (hreq.mpr hz)
    cases sys <;> simp [h0, this]

theorem allocFromFree_spec {c : SC} {vm : Vm} {e : Errno} {P E F : List Nat} {loc : Nat → Loc} {ql : Nat → Nat → QLoc}
    {reqSize m : Nat} {ch : Choice} (hv : g.Valid) (hb : BaseOk g base) (hcls : cls < nClasses g)
    (hreq : reqSize = 0 ↔ g.classSize cls = 0) (h : SCInv g base cls c P E F loc ql) (hvm : SCVm g base cls loc vm)
    (hp0 : c.partialHead = none) (hm : c.freeHead = some m) :
    AllocPost g base cls ch c vm e loc ql (allocFromFree g base cls reqSize ch c vm e m) := by
  have hP0 : P = [] := by
    have := h.lists.ph; rw [hp0] at this; exact List.head?_eq_none_iff.mp this.symm
  subst hP0
  obtain ⟨F1, hF⟩ : ∃ F1, F = m :: F1 := by
    have := h.lists.fh; rw [hm] at this
    cases F with
    | nil => simp at this
    | cons a as => simp at this; exact ⟨as, by rw [this]⟩
  subst hF
  have hlm : loc m = .free := (h.lists.fm m).mp (by simp)
  have hnf : loc m ≠ .fresh := by rw [hlm]; simp
  have hmax := (h.lt_max hnf).2
  have hrw : (loc m).isRw = false := by rw [hlm]; rfl
  have hcm := h.cntOk m
  rw [hlm] at hcm
  have hc0 : (c.slabs m).count = 0 := hcm
  have hinv0 := setCanaryValue_inv (ch := ch) h hnf
  have hs := setCanaryValue_slab (g := g) ch c m
  have hsame := setCanaryValue_same (g := g) (ch := ch) hc0
  unfold allocFromFree
  simp only
  have heq0 := setCanaryValue_eq (g := g) ch c m
  generalize c.setCanaryValue g ch m = c0 at hinv0 hs hsame heq0 ⊢
  rw [protectSlab_eq hb hcls hreq hvm hmax hrw]
  split_ifs with k1 k2
  · exact Or.inl ⟨0, k1.2⟩
  · simp only [Res.bind_ok, if_true]
    exact ⟨rfl, rfl, hsame, ⟨_, _, _, hinv0⟩, Or.inl ⟨0, k2.2⟩⟩
  simp only [Res.bind_ok, Bool.false_eq_true, if_false]
  have hT : c0.takeFreeHead (g.slots cls) m = { c0 with
      slabs := (c0.upd m fun s => { s with next := none, prev := none }).slabs, freeHead := (c0.slabs m).next,
      freeTail := if (c0.slabs m).next = none then none else c0.freeTail,
      partialHead := if g.slots cls > 1 then some m else none } := by
    unfold SC.takeFreeHead SC.upd
    by_cases hn : (c0.slabs m).next = none
    · simp [hn]
    · simp [hn]
  refine openTail_spec (c0 := c0) (E := E) (F := F1) hv hb hcls hreq hvm hmax hrw loc (fun _ => rfl) hnf hinv0.bits (fun i _ => hinv0.cntOk i) h.qarr hsame.used
      hsame.quar h.notransit hc0 ?_ ?_ ?_ ?_ ?_ ?_ ?_ ?_ ?_ ?_ ?_ ?_ ?_ ?_ ?_
  · obtain ⟨v, e, _⟩ := hs m; rw [e]; exact hc0
  · intro i hi
    obtain ⟨v, e, hv⟩ := hs i
    have : c0.slabs i = c.slabs i := by rw [e, hv hi]
    exact ⟨by rw [hT]; simp [SC.upd, hi], this⟩
  · rw [hT]; simp [SC.upd]
  · intro c2 hl2
    rw [hT] at hl2
    refine first_lists (Lists.takeFree (c := c0) hinv0.lists ?_ ?_ ?_ ?_ ?_ ?_ ?_)
    · intro i hi
      rw [hl2.next, hl2.prev]; simp [SC.upd, hi]
    · rw [hl2.next, hl2.prev]; simp [SC.upd]
    · rw [hl2.ph]; simp
    · rw [hl2.eh]
    · rw [hl2.fh]
    · rw [hl2.ft]
    · rw [hl2.fq]
  · rw [hT]; exact hinv0.etot
  all_goals rw [hT]
  all_goals rw [heq0]

/-! ### New slabs -/

theorem sizeof_bounds (g : Cfg) : 17 ≤ PAGE / g.sizeofSlabMetadata := by
  unfold Cfg.sizeofSlabMetadata
  cases g.slabCanary <;> cases g.slabQuarantine <;> cases g.mte <;> decide

/-- Outcomes of `growMetadata`. -/
theorem growMetadata_spec {c : SC} {loc : Nat → Loc} {ch : Choice} (hv : g.Valid) (hcls : cls < nClasses g)
    (h : Bits g cls c loc) :
    match growMetadata g cls ch c with
    | .ok none => (∃ k, ch.sys k = .enomem) ∨ g.metaMax cls ≤ c.metaCount
    | .ok (some c') => ∃ a, c' = { c with metaAllocated := a } ∧ c.metaCount < a ∧ Bits g cls c' loc
    | .fatal _ => ∃ k, ch.sys k = .other
    | _ => False := by
  unfold growMetadata
  by_cases h1 : c.metaCount ≥ c.metaAllocated
  · rw [if_pos h1]
    by_cases h2 : c.metaCount ≥ g.metaMax cls
    · rw [if_pos h2]; exact Or.inr h2
    · rw [if_neg h2]
      cases hs : ch.sys 0 with
      | other => exact ⟨0, hs⟩
      | enomem => exact Or.inl ⟨0, hs⟩
      | ok =>
        simp only
        have h3 := sizeof_bounds g
        have h4 := metaMax_ge hv hcls
        have h5 := h.mcount
        have h6 := h.mpos
        have h7 := h.mle
        refine ⟨_, rfl, ?_, ?_⟩
        · omega
        · refine ⟨h.ung, h.unglt, Or.inr ?_, ?_, ?_, ?_, h.fresh, h.zero, h.cnt, h.hi⟩
          · show 8 ≤ min _ _
            omega
          · show min _ _ ≤ _
            omega
          · show c.metaCount ≤ min _ _ + 1
            omega
          · intro i hi
            show _ < min _ _
            have := h.act i hi
            omega
  · rw [if_neg h1]
    exact ⟨c.metaAllocated, rfl, by omega, h⟩

theorem mod_succ {n N r : Nat} (hr : n % N = r) (h : r + 1 < N) : (n + 1) % N = r + 1 := by
  have h1 := Nat.div_add_mod n N
  rw [hr] at h1
  have : n + 1 = N * (n / N) + (r + 1) := by omega
  rw [this, Nat.mul_add_mod, Nat.mod_eq_of_lt h]

theorem mod_wrap {n N r : Nat} (hr : n % N = r) (h : r + 1 = N) : (n + 1) % N = 0 := by
  have h1 := Nat.div_add_mod n N
  rw [hr] at h1
  have : n + 1 = N * (n / N) + N := by omega
  rw [this, Nat.mul_add_mod, Nat.mod_self]

/-- The fields changed by `bumpMetadata`. -/
theorem bumpMetadata_eq (c : SC) : ∃ a b, c.bumpMetadata g = { c with metaCount := a, metaUnguarded := b } := by
  unfold SC.bumpMetadata
  split <;> exact ⟨_, _, rfl⟩

theorem bumpMetadata_bits {c : SC} {loc : Nat → Loc} (h : Bits g cls c loc) (hlt : c.metaCount < c.metaAllocated) :
    Bits g cls (c.bumpMetadata g) (Loc.set loc c.metaCount .out) ∧ loc c.metaCount = .fresh := by
  have hung := h.ung
  have hunglt := h.unglt
  have hmod : c.metaCount % (g.guardSlabsInterval + 1) = c.metaUnguarded := hung.symm
  have hfresh : loc c.metaCount = .fresh := (h.fresh _).mpr (fun ha => by have := ha.1; omega)
  refine ⟨?_, hfresh⟩
  have key : ∀ c' : SC, c'.slabs = c.slabs → c'.metaAllocated = c.metaAllocated →
      c'.metaUnguarded = c'.metaCount % (g.guardSlabsInterval + 1) → c'.metaUnguarded < g.guardSlabsInterval →
      c'.metaCount ≤ c.metaAllocated + 1 → (∀ i, c'.Active g i ↔ c.Active g i ∨ i = c.metaCount) →
      Bits g cls c' (Loc.set loc c.metaCount .out) := by
    intro c' k1 k2 k3 k4 k5 k6
    refine ⟨k3, k4, by rw [k2]; exact h.mpos, by rw [k2]; exact h.mle, by rw [k2]; exact k5, ?_, ?_, ?_, ?_, ?_⟩
    · intro i hi
      rw [k2]
      rcases (k6 i).mp hi with hi | hi
      · exact h.act i hi
      · omega
    · intro i
      rw [k6 i]
      by_cases hi : i = c.metaCount
      · subst hi; simp
      · rw [Loc.set_ne hi, h.fresh i]; simp [hi]
    · intro i hi
      rw [k1]
      exact h.zero i (fun ha => hi ((k6 i).mpr (Or.inl ha)))
    · intro i; rw [k1]; exact h.cnt i
    · intro i k hk; unfold SC.used; rw [k1]; exact h.hi i k hk
  unfold SC.bumpMetadata
  by_cases h1 : c.metaUnguarded + 1 ≥ g.guardSlabsInterval
  · rw [if_pos h1]
    have hG : c.metaUnguarded + 1 = g.guardSlabsInterval := by omega
    have hm1 := mod_succ hmod (by omega)
    have hm2 := mod_wrap hm1 (by omega)
    refine key _ rfl rfl hm2.symm ?_ ?_ ?_
    · show 0 < _; omega
    · show c.metaCount + 2 ≤ _; omega
    · intro i
      unfold SC.Active
      simp only
      constructor
      · rintro ⟨a, b⟩
        by_cases e1 : i = c.metaCount
        · exact Or.inr e1
        · by_cases e2 : i = c.metaCount + 1
          · subst e2; exact absurd (hm1.trans hG) b
          · exact Or.inl ⟨by omega, b⟩
      · rintro (⟨a, b⟩ | e)
        · exact ⟨by omega, b⟩
        · subst e; exact ⟨by omega, by omega⟩
  · rw [if_neg h1]
    have hm1 := mod_succ hmod (by omega)
    refine key _ rfl rfl hm1.symm ?_ ?_ ?_
    · show c.metaUnguarded + 1 < _; omega
    · show c.metaCount + 1 ≤ _; omega
    · intro i
      unfold SC.Active
      simp only
      constructor
      · rintro ⟨a, b⟩
        by_cases e1 : i = c.metaCount
        · exact Or.inr e1
        · exact Or.inl ⟨by omega, b⟩
      · rintro (⟨a, b⟩ | e)
        · exact ⟨by omega, b⟩
        · subst e; exact ⟨by omega, by omega⟩

theorem allocFromNew_spec {c : SC} {vm : Vm} {e : Errno} {P E F : List Nat} {loc : Nat → Loc} {ql : Nat → Nat → QLoc}
    {reqSize : Nat} {ch : Choice} (hv : g.Valid) (hb : BaseOk g base) (hcls : cls < nClasses g)
    (hreq : reqSize = 0 ↔ g.classSize cls = 0) (h : SCInv g base cls c P E F loc ql) (hvm : SCVm g base cls loc vm)
    (hp0 : c.partialHead = none) (he0 : c.emptyHead = none) (hf0 : c.freeHead = none) :
    AllocPost g base cls ch c vm e loc ql (allocFromNew g base cls reqSize ch c vm e) := by
  have hP0 : P = [] := by
    have := h.lists.ph; rw [hp0] at this; exact List.head?_eq_none_iff.mp this.symm
  have hE0 : E = [] := by
    have := h.lists.eh; rw [he0] at this; exact List.head?_eq_none_iff.mp this.symm
  have hF0 : F = [] := by
    have := h.lists.fh; rw [hf0] at this; exact List.head?_eq_none_iff.mp this.symm
  subst hP0
  have hgrow := growMetadata_spec (ch := ch) hv hcls h.bits
  have hexh : g.metaMax cls ≤ c.metaCount → Exhausted g cls c loc := by
    intro hle
    refine ⟨hle, fun i hi => ?_⟩
    have hP := h.lists.pm i
    have hE := h.lists.em i
    have hF := h.lists.fm i
    rw [hE0] at hE
    rw [hF0] at hF
    have hnf := (h.active_iff i).mp hi
    cases hl : loc i with
    | fresh => exact absurd hl hnf
    | out => exact Or.inl rfl
    | part => rw [hl] at hP; simp at hP
    | empty => rw [hl] at hE; simp at hE
    | free => rw [hl] at hF; simp at hF
    | quar j => exact Or.inr ⟨j, rfl⟩
  unfold allocFromNew
  simp only
  unfold allocMetadata
  cases hg : growMetadata g cls ch c with
  | segv => rw [hg] at hgrow; exact hgrow
  | ub w => rw [hg] at hgrow; exact hgrow
  | hang => rw [hg] at hgrow; exact hgrow
  | fatal msg => rw [hg] at hgrow; simp only [Res.bind_fatal]; exact Or.inl hgrow
  | ok o =>
    rw [hg] at hgrow
    cases o with
    | none =>
      simp only [Res.bind_ok]
      refine ⟨rfl, rfl, ⟨fun _ _ => rfl, fun _ _ => rfl, fun _ _ => rfl, rfl, rfl, rfl, rfl, rfl, rfl, rfl⟩, ⟨_, _, _, h⟩, ?_⟩
      rcases hgrow with hk | hk
      · exact Or.inl hk
      · exact Or.inr (hexh hk)
    | some cg =>
      obtain ⟨a, hcg, hlt, hbits⟩ := hgrow
      have hmc : cg.metaCount = c.metaCount := by rw [hcg]
      have hma : cg.metaAllocated = a := by rw [hcg]
      obtain ⟨hbb, hfr⟩ := bumpMetadata_bits (g := g) hbits (by rw [hmc, hma]; exact hlt)
      rw [hmc] at hbb hfr
      have hmax : c.metaCount < g.metaMax cls := by have := hbits.mle; rw [hma] at this; omega
      have hrw : (loc c.metaCount).isRw = false := by rw [hfr]; rfl
      have hz : c.slabs c.metaCount = Slab.zero := h.bits.zero _ ((h.bits.fresh _).mp hfr)
      simp only [Res.bind_ok]
      rw [hmc, protectSlab_eq hb hcls hreq hvm hmax hrw]
      by_cases k1 : reqSize ≠ 0 ∧ ch.sys 1 = .other
      · rw [if_pos k1]; simp only [Res.bind_fatal]; exact Or.inl ⟨1, k1.2⟩
      rw [if_neg k1]
      by_cases k2 : reqSize ≠ 0 ∧ ch.sys 1 = .enomem
      · rw [if_pos k2]
        simp only [Res.bind_ok, if_true]
        refine ⟨rfl, rfl, ?_, ⟨_, _, _, ⟨h.lists.congr ?_, ?_, hbits, ?_, h.qarr.congr ?_ ?_ ?_ ?_ ?_, h.notransit⟩⟩, Or.inl ⟨1, k2.2⟩⟩
        · rw [hcg]; exact ⟨fun _ _ => rfl, fun _ _ => rfl, fun _ _ => rfl, rfl, rfl, rfl, rfl, rfl, rfl, rfl⟩
        · rw [hcg]; exact ⟨fun _ => rfl, fun _ => rfl, rfl, rfl, rfl, rfl, rfl⟩
        · rw [hcg]; exact h.etot
        · rw [hcg]; exact h.cntOk
        all_goals rw [hcg]
        · exact fun _ _ hh => hh
        · exact fun _ _ => rfl
      · rw [if_neg k2]
        simp only [Res.bind_ok, Bool.false_eq_true, if_false]
        obtain ⟨mc, mu, hbump⟩ := bumpMetadata_eq (g := g) cg
        have hb0 : cg.bumpMetadata g = { c with metaAllocated := a, metaCount := mc, metaUnguarded := mu } := by rw [hbump, hcg]
        generalize hc0 : cg.bumpMetadata g = c0 at hbb hb0 ⊢
        have hsl0 : c0.slabs = c.slabs := by rw [hb0]
        have hs := setCanaryValue_slab (g := g) ch c0 c.metaCount
        have heq := setCanaryValue_eq (g := g) ch c0 c.metaCount
        generalize c0.setCanaryValue g ch c.metaCount = c1 at hs heq ⊢
        refine openTail_spec (c := c) (c0 := c0) (E := E) (F := F) (m := c.metaCount) hv hb hcls hreq hvm hmax hrw (Loc.set loc c.metaCount .out)
          ?_ (by simp) hbb ?_ h.qarr ?_ ?_ h.notransit ?_ ?_ ?_ ?_ ?_ ?_ ?_ ?_ ?_ ?_ ?_ ?_ ?_ ?_ ?_ ?_
        · intro v; funext i; unfold Loc.set; split <;> rfl
        · intro i _; rw [hsl0]; exact h.cntOk i
        · intro i b; unfold SC.used; rw [hsl0]
        · intro i b; unfold SC.quar; rw [hsl0]
        · rw [hz]; rfl
        · rw [hsl0, hz]; rfl
        · intro i hi
          obtain ⟨v, e, hv⟩ := hs i
          exact ⟨by show c1.slabs i = _; rw [e, hv hi], by rw [hsl0]⟩
        · obtain ⟨v, e, _⟩ := hs c.metaCount
          show (c1.slabs _).bitmap = _ ∧ (c1.slabs _).count = _ ∧ (c1.slabs _).qbitmap = _
          rw [e]; exact ⟨rfl, rfl, rfl⟩
        · intro c2 hl2
          refine first_lists (Lists.takeNew (c := c) h.lists hfr ?_ ?_ ?_ ?_ ?_ ?_ ?_)
          · intro i hi
            obtain ⟨v, e, _⟩ := hs i
            rw [hl2.next, hl2.prev]
            show (c1.slabs i).next = _ ∧ (c1.slabs i).prev = _
            rw [e, hsl0]; exact ⟨rfl, rfl⟩
          · obtain ⟨v, e, _⟩ := hs c.metaCount
            rw [hl2.next, hl2.prev]
            show (c1.slabs _).next = _ ∧ (c1.slabs _).prev = _
            rw [e, hsl0, hz]; exact ⟨rfl, rfl⟩
          · rw [hl2.ph]; simp
          · rw [hl2.eh, heq, hb0]
          · rw [hl2.fh, heq, hb0]
          · rw [hl2.ft, heq, hb0]
          · rw [hl2.fq, heq, hb0]
        · rw [heq, hb0]; exact h.etot
        · rw [heq]
        · rw [heq]
        · rw [heq]
        all_goals rw [heq, hb0]

/-- Every outcome of `allocate_small`'s critical section. -/
theorem allocateSmall_spec {c : SC} {vm : Vm} {e : Errno} {P E F : List Nat} {loc : Nat → Loc} {ql : Nat → Nat → QLoc}
    {reqSize : Nat} {ch : Choice} (hv : g.Valid) (hb : BaseOk g base) (hcls : cls < nClasses g)
    (hreq : reqSize = 0 ↔ g.classSize cls = 0) (h : SCInv g base cls c P E F loc ql) (hvm : SCVm g base cls loc vm) :
    AllocPost g base cls ch c vm e loc ql (allocateSmall g base cls reqSize ch c vm e) := by
  unfold allocateSmall
  cases hp : c.partialHead with
  | some m => exact allocFromPartial_spec hv hcls hreq h hvm hp
  | none =>
    cases he : c.emptyHead with
    | some m => exact allocFromEmpty_spec hv hcls hreq h hvm hp he
    | none =>
      cases hf : c.freeHead with
      | some m => exact allocFromFree_spec hv hb hcls hreq h hvm hp hf
      | none => exact allocFromNew_spec hv hb hcls hreq h hvm hp he hf

end
end HM
