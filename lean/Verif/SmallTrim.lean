import Verif.SmallFreeSpec
/-
Specification of `trimClass`: the part of `malloc_trim` for one size class.
-/
namespace HM

section
variable {g : Cfg} {base cls : Nat}

/-- The extended size classes are made of whole pages (complete table, checked by the kernel). -/
theorem extended_page (g : Cfg) {cls : Nat} (h : cls < nClasses g) :
    20480 ≤ g.classSize cls → g.slotSize cls % PAGE = 0 := by
  unfold nClasses at h
  unfold Cfg.slotSize Cfg.classSize sizeClasses
  cases he : g.extended
  · rw [he] at h
    simp only [Bool.false_eq_true, if_false] at h ⊢
    revert cls
    decide +kernel
  · rw [he] at h
    simp only [if_true] at h ⊢
    revert cls
    decide +kernel

theorem SCInv.relinked {c c' : SC} {P E F P' E' F' : List Nat} {loc loc' : Nat → Loc} {ql : Nat → Nat → QLoc}
    (h : SCInv g base cls c P E F loc ql) (hr : LinkOnly loc c c')
    (hl : Lists g c' P' E' F' loc') (he : c'.emptyTotal = E'.length * g.slabSize cls)
    (hf : ∀ i, loc' i = .fresh ↔ loc i = .fresh)
    (hc : ∀ i, CountOk (g.slots cls) (loc' i) (c.slabs i).count) : SCInv g base cls c' P' E' F' loc' ql := by
  have hact : ∀ i, c'.Active g i ↔ c.Active g i := fun i => by unfold SC.Active; rw [hr.mc]
  have hused : ∀ i k, c'.used i k = c.used i k := fun i k => by
    obtain ⟨n, p, e⟩ := hr.slabs i; unfold SC.used; rw [e]
  have hquar : ∀ i k, c'.quar i k = c.quar i k := fun i k => by
    obtain ⟨n, p, e⟩ := hr.slabs i; unfold SC.quar; rw [e]
  refine ⟨hl, he, ⟨?_, ?_, ?_, ?_, ?_, ?_, ?_, ?_, ?_, ?_⟩, ?_, ⟨?_, ?_, ?_, ?_, ?_, ?_, ?_⟩, h.notransit⟩
  · rw [hr.mu, hr.mc]; exact h.bits.ung
  · rw [hr.mu]; exact h.bits.unglt
  · rw [hr.ma]; exact h.bits.mpos
  · rw [hr.ma]; exact h.bits.mle
  · rw [hr.mc, hr.ma]; exact h.bits.mcount
  · intro i hi; rw [hr.ma]; exact h.bits.act i ((hact i).mp hi)
  · intro i; rw [hf, hact]; exact h.bits.fresh i
  · intro i hi
    have hi' : ¬ c.Active g i := fun hh => hi ((hact i).mpr hh)
    rw [hr.fresh i ((h.bits.fresh i).mpr hi')]
    exact h.bits.zero i hi'
  · intro i
    obtain ⟨n, p, e'⟩ := hr.slabs i
    rw [e']; exact h.bits.cnt i
  · intro i b hb
    rw [hused, h.bits.hi i b hb]
  · intro i
    obtain ⟨n, p, e'⟩ := hr.slabs i
    rw [e']; exact hc i
  · intro i b; rw [hquar]; exact h.qarr.bit i b
  · intro i b hib; rw [hused]; exact h.qarr.sub i b hib
  · intro i b j hj; rw [hr.qr]; exact h.qarr.r1 i b j hj
  · intro j hj; rw [hr.qr] at hj; exact h.qarr.r2 j hj
  · intro i b j hj; rw [hr.qq]; exact h.qarr.q1 i b j hj
  · intro j hj; rw [hr.qq] at hj; exact h.qarr.q2 j hj
  · intro h0; rw [hr.qi]; exact h.qarr.idx h0

theorem enqueue_emptyHead (draw : Nat) (c : SC) (m : Nat) (v : Option Nat) :
    enqueueFreeSlab g draw { c with emptyHead := v } m =
      (enqueueFreeSlab g draw c m).bind fun c' => .ok { c' with emptyHead := v } := by
  unfold enqueueFreeSlab
  by_cases h0 : g.freeSlabsQ = 0
  · rw [if_pos h0, if_pos h0]; rfl
  rw [if_neg h0, if_neg h0]
  simp only [SC.upd]
  cases c.freeQ (u16Uniform draw g.freeSlabsQ) with
  | none => rfl
  | some sub => cases c.freeTail <;> rfl

/-- What trimming does to the slabs of a class: `T` are the slabs returned to the system. -/
structure Trimmed (g : Cfg) (base cls : Nat) (c c' : SC) (vm vm' : Vm) (loc loc' : Nat → Loc) (T : List Nat) : Prop where
  links : LinkOnly loc c c'
  nodup : T.Nodup
  mem_T : ∀ i, i ∈ T ↔ (loc i).isRw = true ∧ (loc' i).isRw = false
  empty : ∀ i, i ∈ T → loc i = .empty
  isRw : ∀ i, (loc' i).isRw = true → (loc i).isRw = true
  fresh : ∀ i, loc' i = .fresh ↔ loc i = .fresh
  slabAllocated : c'.slabAllocated =
    if g.stats = true then (fun x => sub64 x (g.slabSize cls))^[T.length] c.slabAllocated else c.slabAllocated
  mem : ∀ x, vm'.mem x = vm.mem x ∨ (vm'.mem x = 0#8 ∧
    ∃ i, i ∈ T ∧ inRange (slabAddr base (g.slabSize cls) i) (g.slabSize cls) x)
  prot : ∀ pg, vm'.prot pg = if ∃ i, i ∈ T ∧ inPages (slabAddr base (g.slabSize cls) i) (g.slabSize cls) pg then .none else vm.prot pg
  total : c'.emptyTotal ≤ c.emptyTotal

theorem Trimmed.refl {c : SC} {vm : Vm} {loc : Nat → Loc} : Trimmed g base cls c c vm vm loc loc [] where
  links := ⟨fun a => ⟨_, _, rfl⟩, fun _ _ => rfl, rfl, rfl, rfl, rfl, rfl, rfl, rfl, rfl, rfl⟩
  nodup := by simp
  mem_T := fun i => by simp
  empty := by simp
  isRw := fun _ h => h
  fresh := fun _ => Iff.rfl
  slabAllocated := by simp
  mem := fun x => Or.inl rfl
  prot := by simp
  total := Nat.le_refl _

theorem trimLoop_spec {P : List Nat} {ql : Nat → Nat → QLoc} {ch : Choice} (hv : g.Valid) (hq0 : 1 ≤ g.freeSlabsQ) (hb : BaseOk g base)
    (hcls : cls < nClasses g) :
    ∀ (fuel k : Nat) (t : Bool) (c : SC) (vm : Vm) (e : Errno) (E F : List Nat) (loc : Nat → Loc),
      E.length < fuel → SCInv g base cls { c with emptyHead := E.head? } P E F loc ql → SCVm g base cls loc vm →
      match trimLoop g base cls ch fuel k E.head? t c vm e with
      | .ok (_, it, t', c', vm', _) => ∃ E' F' loc' T, it = E'.head? ∧ SCInv g base cls { c' with emptyHead := it } P E' F' loc' ql ∧
          SCVm g base cls loc' vm' ∧ Trimmed g base cls c c' vm vm' loc loc' T ∧ t' = (t || decide (T ≠ [])) ∧
          (E' = [] ∨ ∃ k, ch.sys k = .enomem)
      | .fatal _ => ∃ k, ch.sys k = .other
      | _ => False := by
  intro fuel
  have G := classGeo g hcls
  induction fuel with
  | zero => intro k t c vm e E F loc hlt; omega
  | succ n ih =>
    intro k t c vm e E F loc hlt h hvm
    cases E with
    | nil => exact ⟨[], F, loc, [], rfl, h, hvm, Trimmed.refl, by simp, Or.inl rfl⟩
    | cons it E =>
      simp only [List.head?_cons] at h ⊢
      unfold trimLoop
      unfold memoryMapFixed
      simp only
      rw [if_neg (by have := slab_mod hb hcls it; have := G.slab_ge; omega)]
      cases hs : ch.sys k with
      | other => exact ⟨k, hs⟩
      | enomem => exact ⟨it :: E, F, loc, [], rfl, h, hvm, Trimmed.refl, by simp, Or.inr ⟨k, hs⟩⟩
      | ok =>
        simp only [Res.bind_ok, Bool.false_eq_true, if_false]
        have hle : loc it = .empty := (h.lists.em it).mp (by simp)
        rw [SC.statsSlabDealloc_eq]
        generalize hsa : (if g.stats = true then sub64 c.slabAllocated (g.slabSize cls) else c.slabAllocated) = sa
        have hnext : (c.slabs it).next = E.head? := h.lists.es.1
        rw [hnext]
        have het : sub64 c.emptyTotal (g.slabSize cls) = E.length * g.slabSize cls := by
          have h1 : c.emptyTotal = (it :: E).length * g.slabSize cls := h.etot
          have h2 := h.etot_le
          have h3 := hv.classRegionMax
          rw [List.length_cons, Nat.add_mul, Nat.one_mul] at h1 h2
          rw [h1, sub64_of_le (by omega) (by omega)]
          omega
        dsimp only
        rw [het]
        generalize hc1 : ({ c with slabAllocated := sa, emptyTotal := E.length * g.slabSize cls } : SC) = c1
        have hL1 : Lists g { c1 with emptyHead := E.head? } P E F (Loc.set loc it .out) := by
          refine h.lists.popEmpty ?_ ?_ ?_ ?_ ?_ ?_
          · rw [← hc1]
          · intro i _; rw [← hc1]; exact ⟨rfl, rfl⟩
          · exact hnext.symm
          · rw [← hc1]
          · rw [← hc1]
          · rw [← hc1]
        obtain ⟨c2, F2, loc2, j, hen, hL2, hl2m, hl2, sl, fh, ft, fq, hc2, hsl⟩ :=
          Lists.enqueue (draw := ch.u16 k) hL1 (Loc.set_same _ _ _) hq0
        have hen1 : ∃ c3, enqueueFreeSlab g (ch.u16 k) c1 it = .ok c3 ∧ c2 = { c3 with emptyHead := E.head? } := by
          rw [enqueue_emptyHead] at hen
          cases hq : enqueueFreeSlab g (ch.u16 k) c1 it with
          | ok c3 => rw [hq] at hen; simp only [Res.bind] at hen; injection hen with hen; exact ⟨c3, rfl, hen.symm⟩
          | fatal _ => rw [hq] at hen; simp [Res.bind] at hen
          | segv => rw [hq] at hen; simp [Res.bind] at hen
          | ub _ => rw [hq] at hen; simp [Res.bind] at hen
          | hang => rw [hq] at hen; simp [Res.bind] at hen
        obtain ⟨c3, hen3, hc23⟩ := hen1
        rw [hen3]
        simp only [Res.bind_ok]
        have hl2' : ∀ i, i ≠ it → loc2 i = loc i ∨ (loc i = .quar j ∧ loc2 i = .free) := fun i hi => by
          have := hl2 i hi; rwa [Loc.set_ne hi] at this
        have hfr : ∀ i, loc2 i = .fresh ↔ loc i = .fresh := fun i => by
          by_cases ei : i = it
          · subst ei; rw [hl2m, hle]; simp
          · rcases hl2' i ei with e' | ⟨e', e''⟩
            · rw [e']
            · rw [e', e'']; simp
        have hrw : ∀ i, i ≠ it → (loc2 i).isRw = (loc i).isRw := fun i ei => by
          rcases hl2' i ei with e' | ⟨e', e''⟩
          · rw [e']
          · rw [e', e'']; rfl
        have hrwm : (loc2 it).isRw = false := by rw [hl2m]; rfl
        have hO : LinkOnly loc c c3 := by
          have hs3 : c3.slabs = sl := by have := congrArg SC.slabs hc23; rw [hc2] at this; exact this.symm
          have hp : ∀ {α : Type} (f : SC → α), (∀ (x : SC) v, f { x with emptyHead := v } = f x) →
              (∀ (x : SC) a b c d, f { x with slabs := a, freeHead := b, freeTail := c, freeQ := d } = f x) →
              (∀ (x : SC) a b, f { x with slabAllocated := a, emptyTotal := b } = f x) → f c3 = f c := by
            intro α f h1 h2 h3
            rw [← h1 c3 E.head?, ← hc23, hc2, h2, h1, ← hc1, h3]
          refine ⟨?_, ?_, hp _ (fun _ _ => rfl) (fun _ _ _ _ _ => rfl) (fun _ _ _ => rfl),
            hp _ (fun _ _ => rfl) (fun _ _ _ _ _ => rfl) (fun _ _ _ => rfl), hp _ (fun _ _ => rfl) (fun _ _ _ _ _ => rfl) (fun _ _ _ => rfl),
            hp _ (fun _ _ => rfl) (fun _ _ _ _ _ => rfl) (fun _ _ _ => rfl), hp _ (fun _ _ => rfl) (fun _ _ _ _ _ => rfl) (fun _ _ _ => rfl),
            hp _ (fun _ _ => rfl) (fun _ _ _ _ _ => rfl) (fun _ _ _ => rfl), hp _ (fun _ _ => rfl) (fun _ _ _ _ _ => rfl) (fun _ _ _ => rfl),
            hp _ (fun _ _ => rfl) (fun _ _ _ _ _ => rfl) (fun _ _ _ => rfl), hp _ (fun _ _ => rfl) (fun _ _ _ _ _ => rfl) (fun _ _ _ => rfl)⟩
          · intro a
            obtain ⟨n, e', _⟩ := hsl a
            refine ⟨n, (c.slabs a).prev, ?_⟩
            rw [hs3, e', ← hc1]
          · intro a ha
            have hne : a ≠ it := by rintro rfl; rw [hle] at ha; exact absurd ha (by simp)
            obtain ⟨n, e', hn⟩ := hsl a
            rw [hs3, e', hn (by rw [Loc.set_ne hne]; exact ha), ← hc1]
        have hO' : LinkOnly loc { c with emptyHead := some it } { c3 with emptyHead := E.head? } :=
          ⟨hO.slabs, hO.fresh, hO.mc, hO.ma, hO.mu, hO.qr, hO.qq, hO.qi, hO.nm, hO.nd, hO.al⟩
        have het3 : c3.emptyTotal = E.length * g.slabSize cls := by
          have := congrArg SC.emptyTotal hc23; rw [hc2, ← hc1] at this; exact this.symm
        have hsa3 : c3.slabAllocated = sa := by
          have := congrArg SC.slabAllocated hc23; rw [hc2, ← hc1] at this; exact this.symm
        have hI : SCInv g base cls { c3 with emptyHead := E.head? } P E F2 loc2 ql := by
          refine h.relinked hO' (hc23 ▸ hL2) het3 hfr ?_
          intro i
          by_cases ei : i = it
          · subst ei
            have := h.cntOk i
            rw [hle] at this; rw [hl2m]; exact this
          · rcases hl2' i ei with e' | ⟨e', e''⟩
            · rw [e']; exact h.cntOk i
            · have := h.cntOk i; rw [e'] at this; rw [e'']; exact this
        have hvm2 := scvm_close hb hcls hvm hrw hrwm
        have hrec := ih (k + 1) true c3 _ (ch.label k e) E F2 loc2 (by simp only [List.length_cons] at hlt; omega) hI hvm2
        cases hrr : trimLoop g base cls ch n (k + 1) E.head? true c3
            ((vm.setProt (slabAddr base (g.slabSize cls) it) (g.slabSize cls) .none).zeroPages
              (slabAddr base (g.slabSize cls) it) (g.slabSize cls)) (ch.label k e) with
        | segv => rw [hrr] at hrec; exact hrec.elim
        | ub _ => rw [hrr] at hrec; exact hrec.elim
        | hang => rw [hrr] at hrec; exact hrec.elim
        | fatal _ => rw [hrr] at hrec; exact hrec
        | ok res =>
          obtain ⟨k', it', t', c', vm', e'⟩ := res
          rw [hrr] at hrec
          obtain ⟨E', F', loc', T, h1, h2, h3, hT, h5, h6⟩ := hrec
          refine ⟨E', F', loc', it :: T, h1, h2, h3, ?_, by rw [h5]; simp, h6⟩
          have hitT : it ∉ T := fun hh => by
            have := ((hT.mem_T it).mp hh).1; rw [hrwm] at this; exact absurd this (by simp)
          have hit' : (loc' it).isRw = false := by
            cases hh : (loc' it).isRw with
            | false => rfl
            | true => rw [hT.isRw it hh] at hrwm; exact hrwm
          refine ⟨hO.trans hT.links (fun a ha => (hfr a).mpr ha), List.nodup_cons.mpr ⟨hitT, hT.nodup⟩, ?_, ?_, ?_, ?_, ?_, ?_, ?_, ?_⟩
          · intro i
            by_cases ei : i = it
            · subst ei; exact ⟨fun _ => ⟨by rw [hle]; rfl, hit'⟩, fun _ => by simp⟩
            · rw [List.mem_cons, hT.mem_T, hrw i ei]; simp [ei]
          · intro i hi
            rcases List.mem_cons.mp hi with rfl | hi
            · exact hle
            · have ei : i ≠ it := fun ee => hitT (ee ▸ hi)
              have := hT.empty i hi
              rcases hl2' i ei with e' | ⟨e', e''⟩
              · rw [← e']; exact this
              · rw [e''] at this; exact absurd this (by simp)
          · intro i hi
            have := hT.isRw i hi
            by_cases ei : i = it
            · subst ei; rw [hrwm] at this; exact absurd this (by simp)
            · rw [← hrw i ei]; exact this
          · intro i; rw [hT.fresh, hfr]
          · rw [hT.slabAllocated, hsa3, ← hsa]
            by_cases hst : g.stats = true
            · simp [hst]
            · simp [hst]
          · intro x
            rcases hT.mem x with hm | ⟨hm, i, hi, hx⟩
            · rw [hm]
              simp only [Vm.zeroPages]
              by_cases hp : inPages (slabAddr base (g.slabSize cls) it) (g.slabSize cls) (x / PAGE)
              · right; exact ⟨by simp [hp], it, by simp, (slab_pages hb hcls it x).mp hp⟩
              · left; simp [hp, Vm.setProt]
            · exact Or.inr ⟨hm, i, by simp [hi], hx⟩
          · intro pg
            rw [hT.prot]
            simp only [Vm.zeroPages, Vm.setProt]
            by_cases h1 : ∃ i, i ∈ T ∧ inPages (slabAddr base (g.slabSize cls) i) (g.slabSize cls) pg
            · rw [if_pos h1, if_pos]
              obtain ⟨i, hi, hp⟩ := h1
              exact ⟨i, List.mem_cons_of_mem _ hi, hp⟩
            · rw [if_neg h1]
              by_cases h2 : inPages (slabAddr base (g.slabSize cls) it) (g.slabSize cls) pg
              · rw [if_pos h2, if_pos ⟨it, List.mem_cons_self, h2⟩]
              · rw [if_neg h2, if_neg]
                rintro ⟨i, hi, hp⟩
                rcases List.mem_cons.mp hi with rfl | hi
                · exact h2 hp
                · exact h1 ⟨i, hi, hp⟩
          · have h1 : c.emptyTotal = (it :: E).length * g.slabSize cls := h.etot
            rw [List.length_cons, Nat.add_mul] at h1
            have := hT.total
            omega

/-- Purging the quarantined slots of one array. -/
theorem purgeEntries_spec {arr : Nat → Nat} {size : Nat} {ch : Choice} {k0 : Nat} {B : Nat → Prop}
    (harr : ∀ j, arr j ≠ 0 → arr j % PAGE = 0 ∧ ∀ x, inPages (arr j) size (x / PAGE) → B x) :
    ∀ (n i : Nat) (vm : Vm) (e : Errno),
      match purgeEntries arr size ch k0 n i vm e with
      | .ok (vm', _) => vm'.prot = vm.prot ∧ ∀ x, vm'.mem x = vm.mem x ∨ (vm'.mem x = 0#8 ∧ B x)
      | .fatal _ => ∃ k, ch.sys k = .other
      | _ => False := by
  intro n
  induction n with
  | zero => intro i vm e; exact ⟨rfl, fun x => Or.inl rfl⟩
  | succ n ih =>
    intro i vm e
    unfold purgeEntries
    by_cases h0 : arr i = 0
    · rw [if_pos h0]; exact ih (i + 1) vm e
    rw [if_neg h0]
    obtain ⟨hmod, hB⟩ := harr i h0
    unfold memoryPurge
    rw [if_neg (by omega)]
    cases hs : ch.sys (k0 + i) with
    | other => exact ⟨_, hs⟩
    | enomem => simp only [Res.bind_ok]; exact ih (i + 1) vm _
    | ok =>
      simp only [Res.bind_ok, if_true]
      have := ih (i + 1) (vm.zeroPages (arr i) size) e
      cases hr : purgeEntries arr size ch k0 n (i + 1) (vm.zeroPages (arr i) size) e with
      | segv => rw [hr] at this; exact this.elim
      | ub _ => rw [hr] at this; exact this.elim
      | hang => rw [hr] at this; exact this.elim
      | fatal _ => rw [hr] at this; exact this
      | ok res =>
        obtain ⟨vm', e'⟩ := res
        rw [hr] at this
        refine ⟨this.1, fun x => ?_⟩
        rcases this.2 x with hm | hm
        · rw [hm]
          simp only [Vm.zeroPages]
          by_cases hp : inPages (arr i) size (x / PAGE)
          · right; exact ⟨by simp [hp], hB x hp⟩
          · left; simp [hp]
        · exact Or.inr hm

/-- Byte `x` belongs to a quarantined slot. -/
def InQuarantine (g : Cfg) (base cls : Nat) (c : SC) (x : Nat) : Prop :=
  ∃ i k, c.used i k = true ∧ c.quar i k = true ∧ inRange (slotAddr g base cls i k) (g.slotSize cls) x

theorem trimPurge_spec {c : SC} {vm : Vm} {e : Errno} {P E F : List Nat} {loc : Nat → Loc} {ql : Nat → Nat → QLoc} {ch : Choice}
    {k0 : Nat} (hv : g.Valid) (hb : BaseOk g base) (hcls : cls < nClasses g) (h : SCInv g base cls c P E F loc ql) :
    match trimPurge g cls ch k0 c vm e with
    | .ok (vm', _) => vm'.prot = vm.prot ∧ ∀ x, vm'.mem x = vm.mem x ∨ (vm'.mem x = 0#8 ∧ InQuarantine g base cls c x)
    | .fatal _ => ∃ k, ch.sys k = .other
    | _ => False := by
  unfold trimPurge
  by_cases hc : (g.slabQuarantine && g.extended && decide (20480 ≤ g.classSize cls)) = true
  swap
  · rw [if_neg hc]; exact ⟨rfl, fun x => Or.inl rfl⟩
  rw [if_pos hc]
  have hsz : 20480 ≤ g.classSize cls := by
    simp only [Bool.and_eq_true, decide_eq_true_eq] at hc; exact hc.2
  have hss : g.classSize cls = g.slotSize cls := by unfold Cfg.slotSize; rw [if_neg (by omega)]
  have hpm := extended_page g hcls hsz
  have G := classGeo g hcls
  have hR := shl_len (g := g) hcls hv.slabQRandom
  have hQ := shl_len (g := g) hcls hv.slabQQueue
  rw [hss]
  simp only
  rw [if_neg (by omega)]
  have hslot : ∀ i k, slotAddr g base cls i k % PAGE = 0 := fun i k => by
    rw [slotAddr_eq, Nat.add_mod, Nat.mul_mod k, hpm]
    have := slab_mod hb hcls i
    unfold slabAddr at this
    simp [this]
  have hin : ∀ i k, ql i k ≠ .none → ∀ x, inPages (slotAddr g base cls i k) (g.slotSize cls) (x / PAGE) → InQuarantine g base cls c x :=
    fun i k hne x hx => ⟨i, k, h.qarr.sub i k hne, (h.qarr.bit i k).mpr hne, (inPages_addr (hslot i k) hpm).mp hx⟩
  have hA1 : ∀ j, c.qrand j ≠ 0 → c.qrand j % PAGE = 0 ∧ ∀ x, inPages (c.qrand j) (g.slotSize cls) (x / PAGE) → InQuarantine g base cls c x := by
    intro j hj
    obtain ⟨i, k, hq⟩ := h.qarr.r2 j hj
    rw [(h.qarr.r1 i k j hq).1]
    exact ⟨hslot i k, hin i k (by rw [hq]; simp)⟩
  have hA2 : ∀ j, c.qqueue j ≠ 0 → c.qqueue j % PAGE = 0 ∧ ∀ x, inPages (c.qqueue j) (g.slotSize cls) (x / PAGE) → InQuarantine g base cls c x := by
    intro j hj
    obtain ⟨i, k, hq⟩ := h.qarr.q2 j hj
    rw [(h.qarr.q1 i k j hq).1]
    exact ⟨hslot i k, hin i k (by rw [hq]; simp)⟩
  -- second loop from any memory
  have second : ∀ (k1 n : Nat) (vm1 : Vm) (e1 : Errno),
      vm1.prot = vm.prot → (∀ x, vm1.mem x = vm.mem x ∨ (vm1.mem x = 0#8 ∧ InQuarantine g base cls c x)) →
      match (if g.slabQQueue = 0 then Res.ok (vm1, e1) else purgeEntries c.qqueue (g.slotSize cls) ch k1 n 0 vm1 e1) with
      | .ok (vm', _) => vm'.prot = vm.prot ∧ ∀ x, vm'.mem x = vm.mem x ∨ (vm'.mem x = 0#8 ∧ InQuarantine g base cls c x)
      | .fatal _ => ∃ k, ch.sys k = .other
      | _ => False := by
    intro k1 n vm1 e1 hp hm
    by_cases h0 : g.slabQQueue = 0
    · rw [if_pos h0]; exact ⟨hp, hm⟩
    rw [if_neg h0]
    have := purgeEntries_spec (ch := ch) (k0 := k1) hA2 n 0 vm1 e1
    cases hr : purgeEntries c.qqueue (g.slotSize cls) ch k1 n 0 vm1 e1 with
    | segv => rw [hr] at this; exact this.elim
    | ub _ => rw [hr] at this; exact this.elim
    | hang => rw [hr] at this; exact this.elim
    | fatal _ => rw [hr] at this; exact this
    | ok res =>
      rw [hr] at this
      refine ⟨this.1.trans hp, fun x => ?_⟩
      rcases this.2 x with h1 | h1
      · rw [h1]; exact hm x
      · exact Or.inr h1
  by_cases h0 : g.slabQRandom = 0
  · rw [if_pos h0]
    simp only [Res.bind_ok]
    exact second _ _ vm e rfl fun x => Or.inl rfl
  · rw [if_neg h0]
    generalize hlr : shl64 g.slabQRandom (quarantineShift g (g.slotSize cls)) = lr
    have := purgeEntries_spec (ch := ch) (k0 := k0) hA1 lr 0 vm e
    cases hr : purgeEntries c.qrand (g.slotSize cls) ch k0 lr 0 vm e with
    | segv => rw [hr] at this; exact this.elim
    | ub _ => rw [hr] at this; exact this.elim
    | hang => rw [hr] at this; exact this.elim
    | fatal _ => rw [hr] at this; exact this
    | ok res =>
      obtain ⟨vm1, e1⟩ := res
      rw [hr] at this
      simp only [Res.bind_ok]
      exact second _ _ vm1 e1 this.1 this.2

/-- What `trimClass` may do. -/
def TrimPost (g : Cfg) (base cls : Nat) (ch : Choice) (c : SC) (vm : Vm) (loc : Nat → Loc) (ql : Nat → Nat → QLoc) :
    Res (Bool × SC × Vm × Errno) → Prop
  | .ok (t, c', vm', _) => ∃ loc' T vm1, (∃ P E F, SCInv g base cls c' P E F loc' ql ∧ (E = [] ∨ ∃ k, ch.sys k = .enomem)) ∧
      SCVm g base cls loc' vm' ∧ Trimmed g base cls c c' vm vm1 loc loc' T ∧ t = decide (T ≠ []) ∧
      vm'.prot = vm1.prot ∧ ∀ x, vm'.mem x = vm1.mem x ∨ (vm'.mem x = 0#8 ∧ InQuarantine g base cls c x)
  | .fatal _ => ∃ k, ch.sys k = .other
  | _ => False

theorem trimClass_spec {c : SC} {vm : Vm} {e : Errno} {P E F : List Nat} {loc : Nat → Loc} {ql : Nat → Nat → QLoc} {ch : Choice}
    (hv : g.Valid) (hq0 : 1 ≤ g.freeSlabsQ) (hb : BaseOk g base) (hcls : cls < nClasses g) (h : SCInv g base cls c P E F loc ql)
    (hvm : SCVm g base cls loc vm) : TrimPost g base cls ch c vm loc ql (trimClass g base cls ch c vm e) := by
  unfold trimClass
  have hlen : E.length < c.metaCount + 1 := Nat.lt_succ_of_le <| nodup_length_le h.lists.en fun x hx => by
    have hx' : loc x ≠ .fresh := by rw [(h.lists.em x).mp hx]; simp
    have : c.Active g x := by by_contra hc; exact hx' ((h.bits.fresh x).mpr hc)
    exact this.1
  have h' : SCInv g base cls { c with emptyHead := E.head? } P E F loc ql := by
    have : ({ c with emptyHead := E.head? } : SC) = c := by rw [← h.lists.eh]
    rw [this]; exact h
  have hloop := trimLoop_spec (ch := ch) hv hq0 hb hcls (c.metaCount + 1) 0 false c vm e E F loc hlen h' hvm
  rw [h.lists.eh]
  cases hr : trimLoop g base cls ch (c.metaCount + 1) 0 E.head? false c vm e with
  | segv => rw [hr] at hloop; exact hloop.elim
  | ub _ => rw [hr] at hloop; exact hloop.elim
  | hang => rw [hr] at hloop; exact hloop.elim
  | fatal _ => rw [hr] at hloop; exact hloop
  | ok res =>
    obtain ⟨k, it, t, c1, vm1, e1⟩ := res
    rw [hr] at hloop
    obtain ⟨E', F', loc', T, h1, h2, h3, hT, h5, h6⟩ := hloop
    simp only [Res.bind_ok]
    have hp := trimPurge_spec (vm := vm1) (e := e1) (ch := ch) (k0 := k + 1) hv hb hcls h2
    cases hr2 : trimPurge g cls ch (k + 1) { c1 with emptyHead := it } vm1 e1 with
    | segv => rw [hr2] at hp; exact hp.elim
    | ub _ => rw [hr2] at hp; exact hp.elim
    | hang => rw [hr2] at hp; exact hp.elim
    | fatal _ => rw [hr2] at hp; exact hp
    | ok res =>
      obtain ⟨vm2, e2⟩ := res
      rw [hr2] at hp
      simp only [Res.bind_ok]
      refine ⟨loc', T, vm1, ⟨P, E', F', h2, h6⟩, ?_, ?_, by rw [h5]; simp, hp.1, ?_⟩
      · refine ⟨fun i x hi hz hx => by rw [hp.1]; exact h3.rw i x hi hz hx, fun i x hi hn hx => ?_⟩
        have := h3.off i x hi hn hx
        rw [hp.1]
        refine ⟨this.1, ?_⟩
        rcases hp.2 x with hm | hm
        · rw [hm]; exact this.2
        · exact hm.1
      · exact ⟨⟨hT.links.slabs, hT.links.fresh, hT.links.mc, hT.links.ma, hT.links.mu, hT.links.qr, hT.links.qq, hT.links.qi, hT.links.nm,
          hT.links.nd, hT.links.al⟩, hT.nodup, hT.mem_T, hT.empty, hT.isRw, hT.fresh, hT.slabAllocated, hT.mem, hT.prot, hT.total⟩
      · intro x
        rcases hp.2 x with hm | ⟨hm, i, k, hu, hq, hx⟩
        · exact Or.inl hm
        · refine Or.inr ⟨hm, i, k, ?_, ?_, hx⟩
          · obtain ⟨n, p, e'⟩ := hT.links.slabs i
            unfold SC.used at hu ⊢
            rw [show ({ c1 with emptyHead := it } : SC).slabs i = c1.slabs i from rfl, e'] at hu; exact hu
          · obtain ⟨n, p, e'⟩ := hT.links.slabs i
            unfold SC.quar at hq ⊢
            rw [show ({ c1 with emptyHead := it } : SC).slabs i = c1.slabs i from rfl, e'] at hq; exact hq

end
end HM
