import Verif.LinkReach
/-
Accounting for mapped pages when calls follow one another and the kernel never refuses memory: what every function does to the
set of pages that are mapped but neither registered nor quarantined.
-/
namespace HM

variable {ro : Ro} {K : Nat → Prop}

/-- The pages of a region with its guards. -/
def RegionMeta.pages (r : RegionMeta) (pg : Nat) : Prop := inPages (r.p - r.guard) (r.size + r.guard * 2) pg

/-- Page `pg` belongs to one of the ranges in the quarantine of large allocations. -/
def InRegionQ (g : Cfg) (σ : St) (pg : Nat) : Prop :=
  (∃ i, i < g.regionQRandom ∧ (σ.qr i).1 ≠ 0 ∧ inPages (σ.qr i).1 (σ.qr i).2 pg) ∨
  ∃ i, i < g.regionQQueue ∧ (σ.qq i).1 ≠ 0 ∧ inPages (σ.qq i).1 (σ.qq i).2 pg

/-- Every mapped page is in `K`, belongs to a registered region other than `x`, to the quarantine, or to `H`. -/
def Cov (g : Cfg) (K : Nat → Prop) (x : Nat) (H : Nat → Prop) (σ : St) : Prop :=
  ∀ pg, σ.vm.prot pg ≠ .unmapped → K pg ∨ (∃ r, σ.rt.Has r ∧ r.p ≠ x ∧ r.pages pg) ∨ InRegionQ g σ pg ∨ H pg

/-- Nothing. -/
abbrev noPage : Nat → Prop := fun _ => False

/-- The invariant, without the ghost state. -/
def Inv (ro : Ro) (σ : St) : Prop := ∃ G, GInv ro ⟨σ, G⟩

/-- Running `P` in a calm environment: if it returns, `Q` holds; the invariant may be used before and after each action. -/
def LP (ro : Ro) {α : Type} : Prog α → (α → St → Prop) → St → Prop
  | .ret a, Q, σ => Q a σ
  | .act f k, Q, σ => ∀ ch tl σ' tl' b, Env true ch → Inv ro σ → Inv ro σ' → f ch σ tl = .ok (σ', tl', b) → LP ro (k b) Q σ'

theorem LP.bind {α β : Type} {P : Prog α} {f : α → Prog β} {Q : β → St → Prop} {σ : St} (h : LP ro P (fun a σ => LP ro (f a) Q σ) σ) :
    LP ro (P.bind f) Q σ := by
  induction P generalizing σ with
  | ret a => exact h
  | act g k ih => exact fun ch tl σ' tl' b h1 h2 h3 h4 => ih b (h ch tl σ' tl' b h1 h2 h3 h4)

theorem LP.andThen {α β : Type} {P : Prog α} {f : α → Prog β} {Q : β → St → Prop} {σ : St} (h : LP ro P (fun a σ => LP ro (f a) Q σ) σ) :
    LP ro (P >>= f) Q σ := LP.bind h

theorem LP.mono {α : Type} {P : Prog α} {Q Q' : α → St → Prop} {σ : St} (h : LP ro P Q σ) (hQ : ∀ a σ, Q a σ → Q' a σ) : LP ro P Q' σ := by
  induction P generalizing σ with
  | ret a => exact hQ _ _ h
  | act g k ih => exact fun ch tl σ' tl' b h1 h2 h3 h4 => ih b (h ch tl σ' tl' b h1 h2 h3 h4)

theorem LP.seq {α β : Type} {P : Prog α} {f : α → Prog β} {R : α → St → Prop} {Q : β → St → Prop} {σ : St} (h : LP ro P R σ)
    (hf : ∀ a σ, R a σ → LP ro (f a) Q σ) : LP ro (P >>= f) Q σ := LP.andThen (h.mono hf)

theorem LP.pure {α : Type} {a : α} {Q : α → St → Prop} {σ : St} (h : Q a σ) : LP ro (pure a : Prog α) Q σ := h

theorem LP.one {β : Type} {f : Choice → St → Tl → Res (St × Tl × β)} {Q : β → St → Prop} {σ : St}
    (h : ∀ ch tl σ' tl' b, Env true ch → Inv ro σ → Inv ro σ' → f ch σ tl = .ok (σ', tl', b) → Q b σ') : LP ro (.one f) Q σ := h

/-- A specification and a run together. -/
theorem LP.run {α : Type} {t : Nat} {F : Bad → Choice → World → Prop} {P : Prog α} {Q : α → Tl → World → Prop} {R : α → St → Prop}
    {tl tl' : Tl} {w : World} {σ' : St} {a : α} {chs : Nat → Choice} (h : WP .seq ro t F P Q tl w) (hl : LP ro P R w.σ) (hi : GInv ro w)
    (hc : w.G.calm = true) (hf : ∀ n, Env true (chs n)) (ht : ∀ n b, w.G.tags = some b → (chs n).memtag = b) (hr : P.run chs w.σ tl = .ok (σ', tl', a)) : R a σ' := by
  induction P generalizing tl w chs with
  | ret b => cases hr; exact hl
  | act f k ih =>
    have h := h.2 (chs 0) ((show Env w.G.calm (chs 0) from hc ▸ hf 0).fair (ht 0))
    unfold Prog.run at hr
    revert h hr
    cases e : f (chs 0) w.σ tl with
    | ok r =>
      obtain ⟨σ1, tl1, b⟩ := r
      rintro ⟨G', hg, hk⟩ hr
      exact ih b (w := ⟨σ1, G'⟩) (chs := fun n => chs (n + 1)) (hk _ rfl) (hl (chs 0) tl σ1 tl1 b (hf 0) ⟨_, hi⟩ ⟨_, hg.inv⟩ e) hg.inv
        ((show G'.calm = w.G.calm from hg.delay.calm).trans hc) (fun n => hf (n + 1)) (fun n b e => ht (n + 1) b ((congrArg Prod.snd hg.delay.env).symm.trans e)) hr
    | fatal m => intro _ hr; cases hr
    | segv => intro _ hr; cases hr
    | ub _ => intro _ hr; cases hr
    | hang => intro _ hr; cases hr

/-! ### Actions -/

theorem LP.critical {β : Type} {s : Sect} {f : Choice → St → Errno → Res (St × Errno × β)} {Q : β → St → Prop} {σ : St}
    (h : ∀ ch e σ' e' b, Env true ch → Inv ro σ → Inv ro σ' → f ch σ e = .ok (σ', e', b) → Q b σ') : LP ro (critical ro s f) Q σ := by
  intro ch tl σ' tl' b h1 h2 h3 h4
  dsimp only at h4
  by_cases hs : (ro.g.sealMetadata && !tl.unsealed) = true
  · rw [if_pos hs] at h4; cases h4
  · rw [if_neg hs] at h4
    revert h4
    cases e : f ch σ tl.errno with
    | ok r =>
      obtain ⟨σ1, e1, b1⟩ := r
      intro h4
      cases h4
      exact h ch _ _ _ _ h1 h2 h3 e
    | fatal m => intro h; cases h
    | segv => intro h; cases h
    | ub _ => intro h; cases h
    | hang => intro h; cases h

theorem LP.sysCall {se : Bool} {f : Choice → Vm → Res (Vm × Bool)} {Q : Bool → St → Prop} {σ : St}
    (h : ∀ ch vm b, Env true ch → Inv ro σ → Inv ro { σ with vm := vm } → f ch σ.vm = .ok (vm, b) → Q b { σ with vm := vm }) :
    LP ro (sysCall se f) Q σ := by
  refine LP.one fun ch tl σ' tl' b h1 h2 h3 h4 => ?_
  revert h4
  cases e : f ch σ.vm with
  | ok r =>
    obtain ⟨vm, b1⟩ := r
    intro h4
    cases h4
    exact h ch _ _ h1 h2 h3 e
  | fatal m => intro h; cases h
  | segv => intro h; cases h
  | ub _ => intro h; cases h
  | hang => intro h; cases h

theorem LP.unmap {a n : Nat} {Q : Bool → St → Prop} {σ : St} (h : Q false { σ with vm := σ.vm.setProt a n .unmapped }) :
    LP ro (sysUnmap a n) Q σ := by
  refine LP.sysCall fun ch vm b h1 _ _ h4 => ?_
  unfold memoryUnmap at h4
  split at h4
  · cases h4
  · cases e : ch.sys 0 with
    | ok => rw [e] at h4; cases h4; exact h
    | enomem => exact absurd e ((h1.2 rfl).2 0)
    | other => rw [e] at h4; cases h4

theorem LP.unmapTrail {a n : Nat} {Q : Bool → St → Prop} {σ : St} (h : Q false { σ with vm := σ.vm.setProt a n .unmapped }) :
    LP ro (sysUnmapTrail a n) Q σ := by
  refine LP.sysCall fun ch vm b h1 _ _ h4 => ?_
  unfold memoryUnmap at h4
  split at h4
  · cases h4
  · cases e : ch.trailUnmap with
    | ok => rw [e] at h4; cases h4; exact h
    | enomem => exact absurd e (h1.2 rfl).1
    | other => rw [e] at h4; cases h4

theorem LP.mapFixed {a n : Nat} {Q : Bool → St → Prop} {σ : St}
    (h : Q false { σ with vm := (σ.vm.setProt a n .none).zeroPages a n }) : LP ro (sysMapFixed a n) Q σ := by
  refine LP.sysCall fun ch vm b h1 _ _ h4 => ?_
  unfold memoryMapFixed at h4
  split at h4
  · cases h4
  · cases e : ch.sys 0 with
    | ok => rw [e] at h4; cases h4; exact h
    | enomem => exact absurd e ((h1.2 rfl).2 0)
    | other => rw [e] at h4; cases h4

theorem LP.remap {old oldSize new newSize : Nat} {Q : Bool → St → Prop} {σ : St}
    (h : ∀ vm, (∀ pg, vm.prot pg = if inPages new newSize pg then .rw else if inPages old oldSize pg then .unmapped else σ.vm.prot pg) →
      Q false { σ with vm := vm }) : LP ro (sysRemap old oldSize new newSize) Q σ := by
  refine LP.sysCall fun ch vm b h1 _ _ h4 => ?_
  unfold memoryRemapFixed at h4
  split at h4
  · cases h4
  · cases e : ch.sys 0 with
    | ok => rw [e] at h4; cases h4; exact h _ fun _ => rfl
    | enomem => exact absurd e ((h1.2 rfl).2 0)
    | other => rw [e] at h4; cases h4

theorem allPages_inPages {a n pg : Nat} {f : Nat → Bool} (h : Vm.allPages a n f = true) (hp : inPages a n pg) : f pg = true := by
  unfold Vm.allPages at h
  have h := of_decide_eq_true h (pg - a / PAGE) (by unfold inPages at hp; omega)
  unfold inPages at hp
  rwa [show a / PAGE + (pg - a / PAGE) = pg by omega] at h

/-- Unprotecting changes nothing about which pages are mapped. -/
theorem LP.protect {a n : Nat} {Q : Bool → St → Prop} {σ : St}
    (h : ∀ b vm, (∀ pg, vm.prot pg ≠ .unmapped → σ.vm.prot pg ≠ .unmapped) → Q b { σ with vm := vm }) :
    LP ro (sysProtect a n) Q σ := by
  refine LP.sysCall fun ch vm b h1 _ _ h4 => h b vm fun pg hp => ?_
  unfold memoryProtectRw at h4
  split at h4
  · cases h4
  · cases e : ch.sys 0 with
    | ok =>
      rw [e] at h4
      simp only at h4
      split at h4
      · rename_i hall
        cases h4
        by_cases k : inPages a n pg
        · have := allPages_inPages hall k
          simpa using this
        · have : (σ.vm.setProt a n .rw).prot pg = σ.vm.prot pg := if_neg k
          rwa [this] at hp
      · cases h4; exact hp
    | enomem => exact absurd e ((h1.2 rfl).2 0)
    | other => rw [e] at h4; cases h4

theorem LP.purge {a n : Nat} {Q : Bool → St → Prop} {σ : St} (h : ∀ b vm, vm.prot = σ.vm.prot → Q b { σ with vm := vm }) :
    LP ro (sysPurge a n) Q σ := by
  refine LP.sysCall fun ch vm b h1 _ _ h4 => h b vm ?_
  unfold memoryPurge at h4
  split at h4
  · rename_i vm1 e
    cases h4
    split at e
    · cases e
    · cases k : ch.sys 0 <;> rw [k] at e <;> cases e <;> rfl
  all_goals cases h4

theorem LP.map {n : Nat} {Q : Option Nat → St → Prop} {σ : St} (h0 : Q none σ)
    (h : ∀ a, a % PAGE = 0 → PAGE ≤ a → a + n ≤ ADDR_END → Inv ro σ → (∀ pg, inPages a n pg → σ.vm.prot pg = .unmapped) →
      Q (some a) { σ with vm := (σ.vm.setProt a n .none).zeroPages a n }) : LP ro (sysMap n) Q σ := by
  refine LP.one fun ch tl σ' tl' b h1 h2 h3 h4 => ?_
  unfold memoryMap at h4
  cases e : ch.sys 0 with
  | ok =>
    rw [e] at h4
    simp only at h4
    split at h4
    · rename_i vm a e'
      cases h4
      split at e'
      · cases e'
      · split at e'
        · rename_i hc
          cases e'
          exact h _ hc.1 hc.2.1 hc.2.2.1 h2 fun pg hp => by simpa using allPages_inPages hc.2.2.2 hp
        · cases e'
    · rename_i vm e'
      cases h4
      split at e'
      · cases e'
      · split at e'
        · cases e'
        · cases e'; exact h0
    all_goals cases h4
  | enomem => exact absurd e ((h1.2 rfl).2 0)
  | other => rw [e] at h4; cases h4

/-! ### Coverage -/

theorem Cov.step {g : Cfg} {x : Nat} {H H' : Nat → Prop} {σ σ' : St} (h : Cov g K x H σ) (h1 : σ'.rt = σ.rt) (h2 : σ'.qr = σ.qr)
    (h3 : σ'.qq = σ.qq) (hp : ∀ pg, σ'.vm.prot pg ≠ .unmapped → (σ.vm.prot pg ≠ .unmapped ∧ (H pg → H' pg)) ∨ K pg ∨ H' pg) :
    Cov g K x H' σ' := by
  intro pg hpg
  rw [h1, show InRegionQ g σ' pg = InRegionQ g σ pg by unfold InRegionQ; rw [h2, h3]]
  rcases hp pg hpg with ⟨k1, k2⟩ | k | k
  · rcases h pg k1 with k | k | k | k
    · exact Or.inl k
    · exact Or.inr (Or.inl k)
    · exact Or.inr (Or.inr (Or.inl k))
    · exact Or.inr (Or.inr (Or.inr (k2 k)))
  · exact Or.inl k
  · exact Or.inr (Or.inr (Or.inr k))

/-- Fewer pages are mapped. -/
theorem Cov.vm {g : Cfg} {x : Nat} {H : Nat → Prop} {σ : St} {vm : Vm} (h : Cov g K x H σ)
    (hp : ∀ pg, vm.prot pg ≠ .unmapped → σ.vm.prot pg ≠ .unmapped) : Cov g K x H { σ with vm := vm } :=
  h.step rfl rfl rfl fun pg k => Or.inl ⟨hp pg k, id⟩

theorem Cov.mono {g : Cfg} {x : Nat} {H H' : Nat → Prop} {σ : St} (h : Cov g K x H σ) (hp : ∀ pg, H pg → H' pg) : Cov g K x H' σ :=
  h.step rfl rfl rfl fun pg k => Or.inl ⟨k, hp pg⟩

/-- Released pages need not be accounted for. -/
theorem Cov.unmap {g : Cfg} {x : Nat} {H : Nat → Prop} {σ : St} {a n : Nat} (h : Cov g K x H σ) :
    Cov g K x (fun pg => H pg ∧ ¬ inPages a n pg) { σ with vm := σ.vm.setProt a n .unmapped } := by
  refine h.step rfl rfl rfl fun pg k => ?_
  by_cases hp : inPages a n pg
  · exact absurd (if_pos hp) k
  · exact Or.inl ⟨fun e => k ((if_neg hp).trans e), fun q => ⟨q, hp⟩⟩

theorem Cov.map {g : Cfg} {x : Nat} {H : Nat → Prop} {σ : St} {a n : Nat} (h : Cov g K x H σ) :
    Cov g K x (fun pg => H pg ∨ inPages a n pg) { σ with vm := (σ.vm.setProt a n .none).zeroPages a n } := by
  refine h.step rfl rfl rfl fun pg k => ?_
  by_cases hp : inPages a n pg
  · exact Or.inr (Or.inr (Or.inr hp))
  · exact Or.inl ⟨fun e => k ((if_neg hp).trans e), Or.inl⟩

/-- A registered region is mapped. -/
theorem Inv.reg_mapped {σ : St} (h : Inv ro σ) {r : RegionMeta} (hr : σ.rt.Has r) : RegOk r ∧ σ.vm.prot (r.p / PAGE) ≠ .unmapped := by
  obtain ⟨G, h⟩ := h
  have k := h.reg r hr
  refine ⟨k, h.mapped _ ?_⟩
  rw [(h.regOwn _ r.p).mpr ⟨r, hr, rfl, ?_⟩]
  · simp
  · have h1 := k.gpos; have h2 := k.lo; have h3 := k.gmod; have h4 := k.pmod
    unfold inPages; omega

/-! ### pages.c -/

/-- The pages of a block of `size` bytes at `p` and of its guards. -/
abbrev Ext (p size guard : Nat) : Nat → Prop := inPages (p - guard) (size + guard * 2)

/-- The outcome of mapping `size` bytes: nothing more is mapped, or exactly the block and its guards. -/
def Mapped (g : Cfg) (K : Nat → Prop) (x : Nat) (H : Nat → Prop) (size guard : Nat) (σ : St) (r : Option Nat) (σ' : St) : Prop :=
  σ'.rt = σ.rt ∧
  match r with
  | none => Cov g K x H σ'
  | some p => Cov g K x (fun pg => H pg ∨ Ext p size guard pg) σ' ∧ guard + PAGE ≤ p ∧ p % PAGE = 0 ∧ ∀ q, σ.rt.Has q → q.p ≠ p

theorem fresh_of {σ : St} {a n p : Nat} (hi : Inv ro σ) (h : ∀ pg, inPages a n pg → σ.vm.prot pg = .unmapped) (h1 : a ≤ p) (h2 : p < a + n)
    (q : RegionMeta) (hq : σ.rt.Has q) : q.p ≠ p := by
  intro e
  refine (hi.reg_mapped hq).2 (h _ ?_)
  unfold inPages; omega

theorem Leak.allocatePages {x : Nat} {H : Nat → Prop} {σ : St} {size guard : Nat} (h : Cov ro.g K x H σ) (hg : guard % PAGE = 0) (hs : 0 < size) :
    LP ro (HM.allocatePages size guard) (Mapped ro.g K x H size guard σ) σ := by
  unfold HM.allocatePages
  cases ha : addGuards size guard with
  | none => exact LP.seq (R := fun _ σ' => σ' = σ) (LP.one fun _ _ _ _ _ _ _ _ e => by cases e; rfl) fun _ σ' e => by subst e; exact ⟨rfl, h⟩
  | some n =>
    obtain ⟨rfl, hn⟩ := addGuards_some ha
    refine LP.andThen (LP.map ⟨rfl, h⟩ fun a h1 h2 h3 hi h4 => ?_)
    refine LP.andThen (LP.protect fun b vm hb => ?_)
    cases b with
    | true =>
      refine LP.andThen (LP.unmap (LP.pure ⟨rfl, ?_⟩))
      refine ((h.map).vm hb).unmap.mono ?_
      rintro pg ⟨k1 | k1, k2⟩
      · exact k1
      · exact absurd k1 k2
    | false =>
      refine LP.pure ⟨rfl, ?_, by omega, by omega, fresh_of hi h4 (by omega) (by omega)⟩
      refine ((h.map).vm hb).mono fun pg k => k.imp id fun k => ?_
      unfold Ext inPages at *
      omega

theorem Leak.deallocatePages {x : Nat} {H : Nat → Prop} {σ : St} {p size guard : Nat} (h : Cov ro.g K x H σ) :
    LP ro (HM.deallocatePages p size guard) (fun _ σ' => σ'.rt = σ.rt ∧ Cov ro.g K x (fun pg => H pg ∧ ¬ Ext p size guard pg) σ') σ := by
  unfold HM.deallocatePages
  exact LP.andThen (LP.unmap (LP.pure ⟨rfl, h.unmap⟩))

theorem Leak.trimMapping {x : Nat} {H H' : Nat → Prop} {σ : St} {real n lead base size guard trail : Nat} (h : Cov ro.g K x H σ)
    (hH : ∀ pg, H pg → ¬ inPages real lead pg → ¬ inPages (base + size + guard) trail pg → H' pg) (hl : lead = 0 → real % PAGE = 0)
    (ht : trail = 0 → (base + size + guard) % PAGE = 0) :
    LP ro (HM.trimMapping real n lead base size guard trail) (fun r σ' => r = some base ∧ σ'.rt = σ.rt ∧ Cov ro.g K x H' σ') σ := by
  unfold HM.trimMapping
  refine LP.seq (R := fun b σ' => b = false ∧ σ'.rt = σ.rt ∧ Cov ro.g K x (fun pg => H pg ∧ ¬ inPages real lead pg) σ') ?_ ?_
  · by_cases e : lead ≠ 0
    · rw [if_pos e]; exact LP.unmap ⟨rfl, rfl, h.unmap⟩
    · rw [if_neg e]
      refine LP.pure ⟨rfl, rfl, h.mono fun pg k => ⟨k, ?_⟩⟩
      have := hl (by omega)
      unfold inPages; omega
  rintro b σ1 ⟨rfl, e1, h1⟩
  rw [if_neg (by simp)]
  refine LP.seq (R := fun b σ' => b = false ∧ σ'.rt = σ.rt ∧ Cov ro.g K x H' σ') ?_ ?_
  · by_cases e : trail ≠ 0
    · rw [if_pos e]
      exact LP.unmapTrail ⟨rfl, e1, h1.unmap.mono fun pg k => hH pg k.1.1 k.1.2 k.2⟩
    · rw [if_neg e]
      refine LP.pure ⟨rfl, e1, h1.mono fun pg k => hH pg k.1 k.2 ?_⟩
      have := ht (by omega)
      unfold inPages; omega
  rintro b σ2 ⟨rfl, e2, h2⟩
  rw [if_neg (by simp)]
  exact LP.pure ⟨rfl, e2, h2⟩

theorem Leak.mapAligned {x : Nat} {H : Nat → Prop} {σ : St} {size guard e : Nat} (h : Cov ro.g K x H σ) (hg : guard % PAGE = 0)
    (hg1 : PAGE ≤ guard) (hs : 0 < size) (hsm : size % PAGE = 0) (he : 12 ≤ e) :
    LP ro (HM.mapAligned size (2 ^ e) guard (size + (2 ^ e - PAGE)) (size + (2 ^ e - PAGE) + guard + guard))
      (Mapped ro.g K x H size guard σ) σ := by
  unfold HM.mapAligned
  generalize hn : size + (2 ^ e - PAGE) + guard + guard = n
  refine LP.andThen (LP.map ⟨rfl, h⟩ fun real h1 h2 h3 hi h4 => ?_)
  obtain ⟨lead, hl, hl1, hl2, hl3, hl4, hl5⟩ := align_lead (usable := real + guard) (size := size) he (by omega) hsm (by omega)
  simp only
  rw [hl, hl4]
  refine LP.andThen (LP.protect fun b vm hb => ?_)
  cases b with
  | true =>
    refine LP.andThen (LP.unmap (LP.pure ⟨rfl, ?_⟩))
    refine ((h.map).vm hb).unmap.mono ?_
    rintro pg ⟨k1 | k1, k2⟩
    · exact k1
    · exact absurd k1 k2
  | false =>
    rw [if_neg (by simp)]
    refine (Leak.trimMapping (H' := fun pg => H pg ∨ Ext (real + guard + lead) size guard pg) ((h.map).vm hb) ?_ (fun _ => h1) (fun _ => by omega)).mono ?_
    · rintro pg (k | k) k1 k2
      · exact Or.inl k
      · right; unfold Ext inPages at *; omega
    · rintro r σ' ⟨rfl, e1, k⟩
      exact ⟨e1, k, by omega, by omega, fresh_of hi h4 (by omega) (by omega)⟩

theorem Leak.allocatePagesAligned {x : Nat} {H : Nat → Prop} {σ : St} {size guard e : Nat} (h : Cov ro.g K x H σ) (hg : guard % PAGE = 0)
    (hg1 : PAGE ≤ guard) (hlt : size < W64) (he : 12 ≤ e) (he' : e < 64) :
    LP ro (HM.allocatePagesAligned size (2 ^ e) guard) (Mapped ro.g K x H size guard σ) σ := by
  have hA : PAGE ≤ 2 ^ e := Nat.pow_le_pow_right (n := 2) (by decide) he
  have hAlt : 2 ^ e < W64 := Nat.pow_lt_pow_right (a := 2) (by decide) he'
  have herr : LP ro (do setErrno ENOMEM; return none) (Mapped ro.g K x H size guard σ) σ :=
    LP.seq (R := fun _ σ' => σ' = σ) (LP.one fun _ _ _ _ _ _ _ _ e => by cases e; rfl) fun _ σ' e => by subst e; exact ⟨rfl, h⟩
  unfold HM.allocatePagesAligned
  simp only
  by_cases h1 : pageAlign size = 0
  · rw [if_pos h1]; exact herr
  rw [if_neg h1, sub64_of_le hAlt hA]
  have hpu : pageAlign size = pageUp size := by
    refine pageAlign_of_lt ?_
    by_contra hc
    have : (size + 4095) % W64 < PAGE := by omega
    apply h1
    rw [pageAlign_eq, Nat.div_eq_of_lt this, Nat.zero_mul]
  generalize hd : pageAlign size + (2 ^ e - PAGE) = d
  by_cases h2 : W64 ≤ d
  · rw [if_pos h2]; exact herr
  rw [if_neg h2]
  cases hag : addGuards d guard with
  | none => exact herr
  | some n =>
    obtain ⟨rfl, hlt⟩ := addGuards_some hag
    subst hd
    simp only
    refine (Leak.mapAligned h hg hg1 (by omega) (pageAlign_mod _) he).mono fun r σ' h => ?_
    obtain ⟨e1, h⟩ := h
    refine ⟨e1, ?_⟩
    cases r with
    | none => exact h
    | some p =>
      obtain ⟨k1, k2, k3, k4⟩ := h
      refine ⟨k1.mono fun pg k => k.imp id fun k => ?_, k2, k3, k4⟩
      rw [hpu] at k
      unfold Ext inPages pageUp at *
      omega

/-! ### Local actions and reads -/

theorem LP.unseal {Q : Unit → St → Prop} {σ : St} (h : Q () σ) : LP ro unsealMeta Q σ := LP.one fun _ _ _ _ _ _ _ _ e => by cases e; exact h
theorem LP.sealM {Q : Unit → St → Prop} {σ : St} (h : Q () σ) : LP ro sealMeta Q σ := LP.one fun _ _ _ _ _ _ _ _ e => by cases e; exact h
theorem LP.setErrno {n : Errno} {Q : Unit → St → Prop} {σ : St} (h : Q () σ) : LP ro (setErrno n) Q σ := LP.one fun _ _ _ _ _ _ _ _ e => by cases e; exact h
theorem LP.getErrno {Q : Errno → St → Prop} {σ : St} (h : ∀ e, Q e σ) : LP ro getErrno Q σ := LP.one fun _ _ _ _ _ _ _ _ e => by cases e; exact h _
theorem LP.die {α : Type} {msg : String} {Q : α → St → Prop} {σ : St} : LP ro (die msg) Q σ := fun _ _ _ _ b _ _ _ _ => nomatch b

theorem LP.memCopy {d s n : Nat} {Q : Unit → St → Prop} {σ : St} (h : ∀ vm, vm.prot = σ.vm.prot → Q () { σ with vm := vm }) :
    LP ro (memCopy d s n) Q σ := LP.one fun _ _ _ _ _ _ _ _ e => by
  split at e
  · cases e; exact h _ rfl
  · cases e

theorem LP.memZero {p n : Nat} {Q : Unit → St → Prop} {σ : St} (h : ∀ vm, vm.prot = σ.vm.prot → Q () { σ with vm := vm }) :
    LP ro (memZero p n) Q σ := LP.one fun _ _ _ _ _ _ _ _ e => by
  split at e
  · cases e; exact h _ rfl
  · cases e

theorem LP.drawGuard {n : Nat} {Q : Nat → St → Prop} {σ : St} (h : ∀ g, g % PAGE = 0 → PAGE ≤ g → Q g σ) : LP ro (drawGuard ro n) Q σ :=
  LP.critical fun ch _ _ _ _ _ _ _ e => by cases e; exact h _ (guardSize_ok ro.g ch n).1 (guardSize_ok ro.g ch n).2

/-- A critical section that changes nothing. -/
theorem LP.reads {β : Type} {s : Sect} {f : Choice → St → Errno → Res (St × Errno × β)} {Q : β → St → Prop} {σ : St}
    (hf : ∀ ch e σ' e' b, f ch σ e = .ok (σ', e', b) → σ' = σ) (h : ∀ b, Q b σ) : LP ro (HM.critical ro s f) Q σ :=
  LP.critical fun ch e σ' e' b _ _ _ k => by rw [hf ch e σ' e' b k]; exact h b

theorem LP.smallCheck {p : Nat} {Q : Unit → St → Prop} {σ : St} (h : ∀ b, Q b σ) : LP ro (smallCheck ro p) Q σ :=
  LP.reads (fun ch e σ' e' b hf => by
    simp only at hf
    split at hf
    · cases hf
    · split at hf <;> first | (cases hf; rfl) | cases hf) h

theorem LP.smallOffset {p : Nat} {Q : Nat → St → Prop} {σ : St} (h : ∀ b, Q b σ) : LP ro (smallOffset ro p) Q σ :=
  LP.reads (fun ch e σ' e' b hf => by
    simp only at hf
    split at hf
    · cases hf
    · split at hf <;> first | (cases hf; rfl) | cases hf) h

theorem LP.largeObjectSize {p : Nat} {Q : Nat → St → Prop} {σ : St} (h : ∀ b, Q b σ) : LP ro (largeObjectSize ro p) Q σ :=
  LP.reads (fun ch e σ' e' b hf => by split at hf <;> first | (cases hf; rfl) | cases hf) h

theorem LP.readLargeStats {Q : Nat → St → Prop} {σ : St} (h : ∀ b, Q b σ) : LP ro (readLargeStats ro) Q σ :=
  LP.reads (fun ch e σ' e' b hf => by cases hf; rfl) h

theorem LP.readClassStats {a c : Nat} {Q : Nat × Nat → St → Prop} {σ : St} (h : ∀ b, Q b σ) : LP ro (readClassStats ro a c) Q σ :=
  LP.reads (fun ch e σ' e' b hf => by cases hf; rfl) h

/-! ### The region table -/

theorem Inv.unique {σ : St} (h : Inv ro σ) {r r' : RegionMeta} (hr : σ.rt.Has r) (hr' : σ.rt.Has r') (e : r.p = r'.p) : r = r' := by
  obtain ⟨G, h⟩ := h
  exact h.has_unique hr hr' e

theorem LP.findRegion {p : Nat} {msg : String} {Q : Nat × Nat → St → Prop} {σ : St}
    (h : ∀ r : RegionMeta, Inv ro σ → σ.rt.Has r → r.p = p → RegOk r → Q (r.size, r.guard) σ) : LP ro (findRegion ro p msg) Q σ := by
  refine LP.critical fun ch e σ' e' b _ hi _ hf => ?_
  obtain ⟨G, hi⟩ := hi
  rcases lookupRegion_spec hi p with ⟨i, r, h1, h2, h3, h4, h5⟩ | ⟨h1, h2⟩
  · rw [h1] at hf
    cases hf
    exact h r ⟨G, hi⟩ h5 h4 (hi.reg r h5)
  · rw [h1] at hf; cases hf

/-- A region that leaves the table must be accounted for in another way. -/
theorem Leak.removeRegion {H : Nat → Prop} {σ : St} {p : Nat} {x : Option Nat} {msg : String} (h : Cov ro.g K 0 H σ) :
    LP ro (HM.removeRegion ro p x msg) (fun b σ' => Inv ro σ ∧ ∃ r : RegionMeta, σ.rt.Has r ∧ r.p = p ∧ RegOk r ∧ b = (r.size, r.guard) ∧
      (∀ q, σ'.rt.Has q ↔ σ.rt.Has q ∧ q ≠ r) ∧ Cov ro.g K 0 (fun pg => H pg ∨ r.pages pg) σ') σ := by
  refine LP.critical fun ch e σ' e' b _ hi _ hf => ?_
  obtain ⟨G, hi⟩ := hi
  rcases lookupRegion_spec hi p with ⟨i, r, h1, h2, h3, h4, h5⟩ | ⟨h1, h2⟩
  · rw [h1] at hf
    simp only at hf
    split at hf
    · cases hf
    · obtain ⟨t', k1, k2, k3⟩ := regionsDelete_spec hi.rt h2 (by rw [h3]; exact h5.1)
      rw [show regionsDelete hashPage σ.rt i = _ from k1] at hf
      cases hf
      rw [show σ.rt.tab i = r from h3] at k3
      refine ⟨⟨G, hi⟩, r, h5, h4, hi.reg r h5, rfl, k3, fun pg hpg => ?_⟩
      rcases h pg hpg with k | ⟨q, hq, hq0, k⟩ | k | k
      · exact Or.inl k
      · by_cases e : q = r
        · subst e; exact Or.inr (Or.inr (Or.inr (Or.inr k)))
        · exact Or.inr (Or.inl ⟨q, (k3 q).mpr ⟨hq, e⟩, hq0, k⟩)
      · exact Or.inr (Or.inr (Or.inl k))
      · exact Or.inr (Or.inr (Or.inr (Or.inl k)))
  · rw [h1] at hf; cases hf

theorem Leak.resizeRegion {H : Nat → Prop} {σ : St} {r : RegionMeta} {n : Nat} (h : Cov ro.g K r.p H σ) (hr : σ.rt.Has r)
    (hH : ∀ pg, H pg → RegionMeta.pages ⟨r.p, n, r.guard⟩ pg) :
    LP ro (HM.resizeRegion ro r.p r.size n) (fun _ σ' => Cov ro.g K 0 noPage σ') σ := by
  refine LP.critical fun ch e σ' e' b _ hi _ hf => ?_
  obtain ⟨G, hi⟩ := hi
  rcases lookupRegion_spec hi r.p with ⟨i, r', h1, h2, h3, h4, h5⟩ | ⟨h1, h2⟩
  · rw [h1] at hf
    have er := hi.has_unique h5 hr h4
    subst er
    obtain ⟨hinv, hres⟩ := hi.rt.resize h2 h3 h5.1 n
    cases hf
    intro pg hpg
    rcases h pg hpg with k | ⟨q, hq, hq0, k⟩ | k | k
    · exact Or.inl k
    · exact Or.inr (Or.inl ⟨q, (hres q).mpr (Or.inl ⟨hq, fun e => hq0 (by rw [e])⟩), hq.1, k⟩)
    · exact Or.inr (Or.inr (Or.inl k))
    · exact Or.inr (Or.inl ⟨_, (hres _).mpr (Or.inr rfl), hr.1, hH pg k⟩)
  · exact absurd rfl (h2 r hr)

/-- A new region accounts for its pages. -/
theorem Leak.insertRegion {H : Nat → Prop} {σ : St} {p size guard : Nat} {st : Bool} (h : Cov ro.g K 0 (fun pg => H pg ∨ Ext p size guard pg) σ)
    (hp : p ≠ 0) (hnew : ∀ q, σ.rt.Has q → q.p ≠ p) :
    LP ro (HM.insertRegion ro p size guard st) (fun b σ' => match b with
      | true => (∀ q, σ'.rt.Has q ↔ σ.rt.Has q ∨ q = ⟨p, size, guard⟩) ∧ Cov ro.g K 0 H σ'
      | false => σ' = σ) σ := by
  refine LP.critical fun ch e σ' e' b hf hi _ hr => ?_
  obtain ⟨G, hi⟩ := hi
  by_cases hc : σ.rt.free * 4 < σ.rt.total ∧ (ch.sys 0 = .other ∨ ch.growRemap = .other)
  · rw [if_pos hc] at hr; cases hr
  rw [if_neg hc] at hr
  have hrm : regionsInsert hashPage ro.g.maxRegionTable (decide (ch.sys 0 = .ok)) (decide (ch.growRemap = .ok)) σ.rt ⟨p, size, guard⟩ =
      regionsInsert hashPage ro.g.maxRegionTable (decide (ch.sys 0 = .ok)) true σ.rt ⟨p, size, guard⟩ := by
    by_cases hg : σ.rt.free * 4 < σ.rt.total
    · have : ch.growRemap = .ok := by
        cases e : ch.growRemap with
        | ok => rfl
        | enomem => exact absurd e hf.1
        | other => exact absurd ⟨hg, Or.inr e⟩ hc
      rw [this]; rfl
    · unfold regionsInsert; rw [if_neg hg, if_neg hg]
  rw [hrm] at hr
  rcases regionsInsert_spec (protOk := decide (ch.sys 0 = .ok)) (maxTotal := ro.g.maxRegionTable) (r := ⟨p, size, guard⟩) hi.rt hp hnew
    with ⟨h1, h2, h3⟩ | ⟨rt', h1, h2, h3⟩
  · rw [show regionsInsert hashPage ro.g.maxRegionTable (decide (ch.sys 0 = .ok)) true σ.rt ⟨p, size, guard⟩ = _ from h1] at hr
    cases hr
    rfl
  · rw [show regionsInsert hashPage ro.g.maxRegionTable (decide (ch.sys 0 = .ok)) true σ.rt ⟨p, size, guard⟩ = _ from h1] at hr
    cases hr
    refine ⟨h3, fun pg hpg => ?_⟩
    rcases h pg hpg with k | ⟨q, hq, hq0, k⟩ | k | k | k
    · exact Or.inl k
    · exact Or.inr (Or.inl ⟨q, (h3 q).mpr (Or.inl hq), hq0, k⟩)
    · exact Or.inr (Or.inr (Or.inl k))
    · exact Or.inr (Or.inr (Or.inr k))
    · exact Or.inr (Or.inl ⟨_, (h3 _).mpr (Or.inr rfl), hp, k⟩)

/-! ### The quarantine of regions -/

theorem pushRegionRandom_spec {g : Cfg} {ch : Choice} {σ : St} {t : Nat × Nat} (ht : t.1 ≠ 0) :
    (pushRegionRandom g ch σ t).1.rt = σ.rt ∧ (pushRegionRandom g ch σ t).1.vm = σ.vm ∧
    ∀ pg, (InRegionQ g σ pg ∨ inPages t.1 t.2 pg) → InRegionQ g (pushRegionRandom g ch σ t).1 pg ∨
      ((pushRegionRandom g ch σ t).2.1 ≠ 0 ∧ inPages (pushRegionRandom g ch σ t).2.1 (pushRegionRandom g ch σ t).2.2 pg) := by
  unfold pushRegionRandom
  by_cases h0 : g.regionQRandom = 0
  · rw [if_pos h0]
    exact ⟨rfl, rfl, fun pg h => h.imp id fun h => ⟨ht, h⟩⟩
  · rw [if_neg h0]
    refine ⟨rfl, rfl, fun pg h => ?_⟩
    have hlt : ch.guard % g.regionQRandom < g.regionQRandom := Nat.mod_lt _ (by omega)
    rcases h with (⟨i, hi, h1, h2⟩ | h) | h
    · by_cases e : i = ch.guard % g.regionQRandom
      · subst e; exact Or.inr ⟨h1, h2⟩
      · refine Or.inl (Or.inl ⟨i, hi, ?_⟩)
        have : setAt σ.qr (ch.guard % g.regionQRandom) t i = σ.qr i := if_neg e
        simp only
        rw [this]; exact ⟨h1, h2⟩
    · exact Or.inl (Or.inr h)
    · refine Or.inl (Or.inl ⟨_, hlt, ?_⟩)
      have : setAt σ.qr (ch.guard % g.regionQRandom) t (ch.guard % g.regionQRandom) = t := if_pos rfl
      simp only
      rw [this]; exact ⟨ht, h⟩

theorem pushRegionQueue_spec {g : Cfg} {σ : St} {t : Nat × Nat} (hq : g.regionQQueue ≠ 0 → σ.qi < g.regionQQueue) (ht : t.1 ≠ 0) :
    (pushRegionQueue g σ t).1.rt = σ.rt ∧ (pushRegionQueue g σ t).1.vm = σ.vm ∧
    ∀ pg, (InRegionQ g σ pg ∨ inPages t.1 t.2 pg) → InRegionQ g (pushRegionQueue g σ t).1 pg ∨
      ((pushRegionQueue g σ t).2.1 ≠ 0 ∧ inPages (pushRegionQueue g σ t).2.1 (pushRegionQueue g σ t).2.2 pg) := by
  unfold pushRegionQueue
  by_cases h0 : g.regionQQueue = 0
  · rw [if_pos h0]
    exact ⟨rfl, rfl, fun pg h => h.imp id fun h => ⟨ht, h⟩⟩
  · rw [if_neg h0]
    refine ⟨rfl, rfl, fun pg h => ?_⟩
    have hlt := hq h0
    rcases h with (h | ⟨i, hi, h1, h2⟩) | h
    · exact Or.inl (Or.inl h)
    · by_cases e : i = σ.qi
      · subst e; exact Or.inr ⟨h1, h2⟩
      · refine Or.inl (Or.inr ⟨i, hi, ?_⟩)
        have : setAt σ.qq σ.qi t i = σ.qq i := if_neg e
        simp only
        rw [this]; exact ⟨h1, h2⟩
    · refine Or.inl (Or.inr ⟨_, hlt, ?_⟩)
      have : setAt σ.qq σ.qi t σ.qi = t := if_pos rfl
      simp only
      rw [this]; exact ⟨ht, h⟩

/-- What enters the quarantine is accounted for by it; what leaves it is returned. -/
theorem Leak.quarantineRegion {x : Nat} {H : Nat → Prop} {σ : St} {t : Nat × Nat} (h : Cov ro.g K x (fun pg => H pg ∨ inPages t.1 t.2 pg) σ)
    (ht : t.1 ≠ 0) :
    LP ro (HM.quarantineRegion ro t) (fun o σ' => σ'.rt = σ.rt ∧
      Cov ro.g K x (fun pg => H pg ∨ ∃ t', o = some t' ∧ inPages t'.1 t'.2 pg) σ') σ := by
  refine LP.critical fun ch e σ' e' b _ hi _ hf => ?_
  obtain ⟨G, hi⟩ := hi
  have hqi := hi.qi
  obtain ⟨a1, a2, a3⟩ := pushRegionRandom_spec (g := ro.g) (ch := ch) (σ := σ) ht
  have hqi' : ro.g.regionQQueue ≠ 0 → (pushRegionRandom ro.g ch σ t).1.qi < ro.g.regionQQueue := by
    have : (pushRegionRandom ro.g ch σ t).1.qi = σ.qi := by unfold pushRegionRandom; split <;> rfl
    rw [this]; exact hqi
  simp only at hf
  generalize pushRegionRandom ro.g ch σ t = r1 at *
  obtain ⟨σ1, t1⟩ := r1
  simp only at a1 a2 a3 hqi' hf
  have hall : ∀ pg, σ1.vm.prot pg ≠ .unmapped → K pg ∨ (∃ r, σ1.rt.Has r ∧ r.p ≠ x ∧ r.pages pg) ∨
      (InRegionQ ro.g σ1 pg ∨ (t1.1 ≠ 0 ∧ inPages t1.1 t1.2 pg)) ∨ H pg := by
    intro pg hpg
    rw [a2] at hpg
    rw [a1]
    rcases h pg hpg with k | k | k | k | k
    · exact Or.inl k
    · exact Or.inr (Or.inl k)
    · exact Or.inr (Or.inr (Or.inl (a3 pg (Or.inl k))))
    · exact Or.inr (Or.inr (Or.inr k))
    · exact Or.inr (Or.inr (Or.inl (a3 pg (Or.inr k))))
  by_cases h0 : t1.1 = 0
  · rw [if_pos h0] at hf
    cases hf
    refine ⟨a1, fun pg hpg => ?_⟩
    rcases hall pg hpg with k | k | (k | k) | k
    · exact Or.inl k
    · exact Or.inr (Or.inl k)
    · exact Or.inr (Or.inr (Or.inl k))
    · exact absurd h0 k.1
    · exact Or.inr (Or.inr (Or.inr (Or.inl k)))
  · rw [if_neg h0] at hf
    obtain ⟨b1, b2, b3⟩ := pushRegionQueue_spec (g := ro.g) (σ := σ1) hqi' h0
    generalize pushRegionQueue ro.g σ1 t1 = r2 at *
    obtain ⟨σ2, t2⟩ := r2
    simp only at b1 b2 b3 hf
    cases hf
    refine ⟨b1.trans a1, fun pg hpg => ?_⟩
    rw [b2] at hpg
    rw [b1]
    have hq : InRegionQ ro.g σ' pg ∨ (t2.1 ≠ 0 ∧ inPages t2.1 t2.2 pg) → K pg ∨ (∃ r, σ1.rt.Has r ∧ r.p ≠ x ∧ r.pages pg) ∨
        InRegionQ ro.g σ' pg ∨ (H pg ∨ ∃ t', (if t2.1 = 0 then none else some t2) = some t' ∧ inPages t'.1 t'.2 pg) := by
      rintro (k | ⟨k1, k2⟩)
      · exact Or.inr (Or.inr (Or.inl k))
      · rw [if_neg k1]
        exact Or.inr (Or.inr (Or.inr (Or.inr ⟨t2, rfl, k2⟩)))
    rcases hall pg hpg with k | k | (k | k) | k
    · exact Or.inl k
    · exact Or.inr (Or.inl k)
    · exact hq (b3 pg (Or.inl k))
    · exact hq (b3 pg (Or.inr k.2))
    · exact Or.inr (Or.inr (Or.inr (Or.inl k)))

theorem Leak.quarantineDeallocatePages {x : Nat} {H : Nat → Prop} {σ : St} {p size guard : Nat} (h : Cov ro.g K x (fun pg => H pg ∨ Ext p size guard pg) σ)
    (hp : p - guard ≠ 0) (hgp : guard ≤ p) :
    LP ro (HM.quarantineDeallocatePages ro p size guard) (fun _ σ' => σ'.rt = σ.rt ∧ Cov ro.g K x H σ') σ := by
  unfold HM.quarantineDeallocatePages
  by_cases hq : (!ro.g.regionQuarantine || decide (ro.g.regionQSkip ≤ size)) = true
  · rw [if_pos hq]
    refine (Leak.deallocatePages h).mono fun _ σ' h => ⟨h.1, h.2.mono ?_⟩
    rintro pg ⟨k1 | k1, k2⟩
    · exact k1
    · exact absurd k1 k2
  · rw [if_neg hq]
    refine LP.andThen (LP.mapFixed ?_)
    rw [if_neg (by simp)]
    have h1 : Cov ro.g K x (fun pg => H pg ∨ Ext p size guard pg) { σ with vm := (σ.vm.setProt p size .none).zeroPages p size } := by
      refine h.map.mono ?_
      rintro pg (k | k)
      · exact k
      · right; unfold Ext inPages at *; omega
    refine LP.seq (Leak.quarantineRegion (t := (p - guard, size + guard * 2)) h1 hp) ?_
    rintro o σ2 ⟨e2, h2⟩
    cases o with
    | none =>
      refine LP.pure ⟨e2, h2.mono ?_⟩
      rintro pg (k | ⟨t', k, _⟩)
      · exact k
      · cases k
    | some t =>
      refine LP.andThen (LP.unmap (LP.pure ⟨e2, h2.unmap.mono ?_⟩))
      rintro pg ⟨k1 | ⟨t', k, k1⟩, k2⟩
      · exact k1
      · cases k; exact absurd k1 k2

/-! ### Small allocations -/

theorem slab_page (hro : RoOk ro) (hK : ∀ pg, inPages ro.slabStart (ro.arenaSize * ro.g.nArena) pg → K pg) {a c i pg : Nat}
    (ha : a < ro.g.nArena) (hc : c < nClasses ro.g) (hi : i < ro.g.metaMax c)
    (hp : inPages (slabAddr (ro.regionStart a c) (ro.g.slabSize c) i) (ro.g.slabSize c) pg) : K pg := by
  obtain ⟨x, hx, rfl⟩ := page_in_slab (hro.base ha hc) hc hp
  exact hK _ (class_region_slab hro ha hc (slab_of_slab hc hi hx))

/-- Nothing is mapped outside of the slab region, and the region table does not change. -/
def Kept (g : Cfg) (K : Nat → Prop) (x : Nat) (H : Nat → Prop) (σ σ' : St) : Prop := σ'.rt = σ.rt ∧ Cov g K x H σ'

theorem Leak.smallAlloc (hro : RoOk ro) (hK : ∀ pg, inPages ro.slabStart (ro.arenaSize * ro.g.nArena) pg → K pg) {x : Nat} {H : Nat → Prop} {σ : St}
    {a n : Nat} (h : Cov ro.g K x H σ) (hn : n ≤ ro.g.maxSlab) : LP ro (HM.smallAlloc ro a n) (fun _ => Kept ro.g K x H σ) σ := by
  have hc := clsOf_lt hn
  refine LP.critical fun ch e σ' e' b _ hi _ hf => ?_
  obtain ⟨G, hi⟩ := hi
  simp only at hf
  split at hf
  · cases hf
  rename_i hb
  have ha : a < ro.g.nArena := by omega
  obtain ⟨P, E, Fl, hinv⟩ := hi.cls a _ ha hc
  have hvm := hi.clsVm a _ ha hc
  have sp := allocateSmall_spec (ch := ch) (e := e) hro.valid (hro.base ha hc) hc (clsOf_zero hn) hinv hvm
  simp only [Cfg.clsOf] at hc hvm hinv sp
  generalize (getSizeInfo n).cls = c at *
  revert sp hf
  cases allocateSmall ro.g (ro.regionStart a c) c n ch (σ.sc a c) σ.vm e with
  | ok r =>
    obtain ⟨_ | p, s', vm', e1⟩ := r
    · intro hf
      rintro ⟨rfl, rfl, -⟩
      cases hf
      exact ⟨rfl, h.step rfl rfl rfl fun pg k => Or.inl ⟨k, id⟩⟩
    · intro hf
      rintro ⟨-, i, k, v, -, -, -, -, ht, hv, -⟩
      cases hf
      refine ⟨rfl, h.step rfl rfl rfl fun pg k => ?_⟩
      have k : vm'.prot pg ≠ .unmapped := k
      rw [hv.prot pg] at k
      split at k
      · rename_i hh; exact Or.inr (Or.inl (slab_page hro hK ha hc ht.imax hh.2.2))
      · exact Or.inl ⟨k, id⟩
  | fatal m => intro hf; cases hf
  | segv => intro hf; cases hf
  | ub _ => intro hf; cases hf
  | hang => intro hf; cases hf

theorem Leak.smallFree (hro : RoOk ro) (hK : ∀ pg, inPages ro.slabStart (ro.arenaSize * ro.g.nArena) pg → K pg) {x : Nat} {H : Nat → Prop} {σ : St}
    {p : Nat} {ex : Option Nat} (h : Cov ro.g K x H σ) (hp : p < W64) : LP ro (HM.smallFree ro p ex) (fun _ => Kept ro.g K x H σ) σ := by
  refine LP.critical fun ch e σ' e' b _ hi _ hf => ?_
  obtain ⟨G, hi⟩ := hi
  simp only at hf
  split at hf
  · cases hf
  rename_i hb
  generalize (ro.sizeClassOf p).1 = a at *
  generalize (ro.sizeClassOf p).2 = c at *
  have ha : a < ro.g.nArena := by omega
  have hc : c < nClasses ro.g := by omega
  obtain ⟨P, E, Fl, hinv⟩ := hi.cls a c ha hc
  have hvm := hi.clsVm a c ha hc
  have sp := deallocateSmall_spec (p := p) (expected := ex) (ch := ch) (e := e) hro.valid hro.freeQ (hro.base ha hc) hc hp hinv hvm
  revert sp hf
  cases deallocateSmall ro.g (ro.regionStart a c) c p ex ch (σ.sc a c) σ.vm e with
  | ok r =>
    obtain ⟨s', vm', e1⟩ := r
    intro hf
    rintro ⟨-, i, k, loc', ql', out, r, -, D⟩
    cases hf
    refine ⟨rfl, h.step rfl rfl rfl fun pg k => ?_⟩
    have k : vm'.prot pg ≠ .unmapped := k
    rw [D.prot pg] at k
    split at k
    · rename_i hh
      obtain ⟨_, a', e1, e2⟩ := hh
      cases ho : out with
      | none => rw [ho] at e1; cases e1
      | some ab =>
        rw [ho] at e1
        cases e1
        exact Or.inr (Or.inl (slab_page hro hK ha hc (hinv.bits.used_meta (D.was ab.1 ab.2 ho).1).2 e2))
    · exact Or.inl ⟨k, id⟩
  | fatal m => intro hf; cases hf
  | segv => intro hf; cases hf
  | ub _ => intro hf; cases hf
  | hang => intro hf; cases hf

theorem Leak.smallTrim (hro : RoOk ro) (hK : ∀ pg, inPages ro.slabStart (ro.arenaSize * ro.g.nArena) pg → K pg) {x : Nat} {H : Nat → Prop} {σ : St}
    {a c : Nat} (h : Cov ro.g K x H σ) (ha : a < ro.g.nArena) (hc : c < nClasses ro.g) : LP ro (HM.smallTrim ro a c) (fun _ => Kept ro.g K x H σ) σ := by
  refine LP.critical fun ch e σ' e' b _ hi _ hf => ?_
  obtain ⟨G, hi⟩ := hi
  obtain ⟨P, E, Fl, hinv⟩ := hi.cls a c ha hc
  have hvm := hi.clsVm a c ha hc
  have sp := trimClass_spec (ch := ch) (e := e) hro.valid hro.freeQ (hro.base ha hc) hc hinv hvm
  revert sp hf
  cases trimClass ro.g (ro.regionStart a c) c ch (σ.sc a c) σ.vm e with
  | ok r =>
    obtain ⟨b1, s', vm', e1⟩ := r
    intro hf
    rintro ⟨loc', T, vm1, -, -, h2, -, h4, -⟩
    cases hf
    refine ⟨rfl, h.step rfl rfl rfl fun pg k => ?_⟩
    have k : vm'.prot pg ≠ .unmapped := k
    rw [h4, h2.prot pg] at k
    split at k
    · rename_i hh
      obtain ⟨i, hT, hp⟩ := hh
      exact Or.inr (Or.inl (slab_page hro hK ha hc (hinv.rw_lt (by rw [show _ = _ from h2.empty i hT]; simp)) hp))
    · exact Or.inl ⟨k, id⟩
  | fatal m => intro hf; cases hf
  | segv => intro hf; cases hf
  | ub _ => intro hf; cases hf
  | hang => intro hf; cases hf

/-! ### Large allocations -/

/-- The outcome of an allocation: everything is accounted for, old regions are kept, and `P` holds of the new block. -/
def Alloced (g : Cfg) (K : Nat → Prop) (P : Nat → St → Prop) (σ : St) (r : Option Nat) (σ' : St) : Prop :=
  Cov g K 0 noPage σ' ∧ (∀ q, σ.rt.Has q → σ'.rt.Has q) ∧ ∀ p, r = some p → P p σ'

theorem Leak.finishLarge {σ0 σ : St} {size guard : Nat} {st : Bool} {r : Option Nat} (h : Mapped ro.g K 0 noPage size guard σ0 r σ) :
    LP ro (HM.finishLarge ro size guard st r) (Alloced ro.g K (fun p σ' => σ'.rt.Has ⟨p, size, guard⟩ ∧ ∀ q, σ0.rt.Has q → q.p ≠ p) σ0) σ := by
  obtain ⟨e, h⟩ := h
  cases r with
  | none => exact LP.pure ⟨h, fun q hq => by rw [e]; exact hq, fun p hp => by cases hp⟩
  | some p =>
    obtain ⟨h1, h2, h3, h4⟩ := h
    have hp : p ≠ 0 := by omega
    refine LP.seq (Leak.insertRegion h1 hp (fun q hq => h4 q (by rw [← e]; exact hq))) fun b σ1 hb => ?_
    cases b with
    | true =>
      obtain ⟨k1, k2⟩ := hb
      refine LP.pure ⟨k2, fun q hq => (k1 q).mpr (Or.inl (by rw [e]; exact hq)), fun p' hp' => ?_⟩
      cases hp'
      exact ⟨(k1 _).mpr (Or.inr rfl), h4⟩
    | false =>
      subst hb
      refine LP.seq (Leak.deallocatePages h1) ?_
      rintro _ σ2 ⟨e2, k⟩
      refine LP.pure ⟨k.mono ?_, fun q hq => by rw [e2, e]; exact hq, fun p' hp' => by cases hp'⟩
      rintro pg ⟨k1 | k1, k2⟩
      · exact k1
      · exact absurd k1 k2

theorem Leak.allocateLarge {σ : St} {n : Nat} (h : Cov ro.g K 0 noPage σ) :
    LP ro (HM.allocateLarge ro n) (Alloced ro.g K (fun p σ' => (∃ gd, σ'.rt.Has ⟨p, getLargeSizeClass ro.g n, gd⟩) ∧ ∀ q, σ.rt.Has q → q.p ≠ p) σ) σ := by
  unfold HM.allocateLarge
  simp only
  by_cases h0 : getLargeSizeClass ro.g n = 0
  · rw [if_pos h0]
    exact LP.andThen (LP.setErrno (LP.pure ⟨h, fun _ hq => hq, fun p hp => by cases hp⟩))
  rw [if_neg h0]
  refine LP.andThen (LP.drawGuard fun gd hg _ => ?_)
  refine LP.seq (Leak.allocatePages h hg (by omega)) fun r σ1 h1 => ?_
  exact (Leak.finishLarge h1).mono fun r σ2 h2 => ⟨h2.1, h2.2.1, fun p hp => ⟨⟨gd, (h2.2.2 p hp).1⟩, (h2.2.2 p hp).2⟩⟩

theorem Leak.allocateOverAligned {σ : St} {n e : Nat} (h : Cov ro.g K 0 noPage σ) (hn : n < W64) (he : 12 ≤ e) (he' : e < 64) :
    LP ro (HM.allocateOverAligned ro (2 ^ e) n) (fun _ σ' => Cov ro.g K 0 noPage σ') σ := by
  unfold HM.allocateOverAligned
  simp only
  by_cases h0 : getLargeSizeClass ro.g n = 0
  · rw [if_pos h0]; exact LP.pure h
  rw [if_neg h0]
  refine LP.andThen (LP.drawGuard fun gd hg hg1 => ?_)
  refine LP.seq (Leak.allocatePagesAligned h hg hg1 (getLargeSizeClass_ok ro.g hn h0).2.1 he he') fun r σ1 h1 => ?_
  exact (Leak.finishLarge h1).mono fun r σ2 h2 => h2.1

theorem Leak.deallocateLarge {σ : St} {p : Nat} {ex : Option Nat} (h : Cov ro.g K 0 noPage σ) :
    LP ro (HM.deallocateLarge ro p ex) (fun _ σ' => Cov ro.g K 0 noPage σ') σ := by
  unfold HM.deallocateLarge
  refine LP.andThen (LP.unseal ?_)
  refine LP.seq (Leak.removeRegion h) ?_
  rintro b σ1 ⟨-, r, -, rfl, hr, rfl, -, h1⟩
  have := hr.lo
  exact (Leak.quarantineDeallocatePages h1 (by omega) (by omega)).mono fun _ _ h => h.2

/-! ### The API -/

section
variable (hro : RoOk ro) (hK : ∀ pg, inPages ro.slabStart (ro.arenaSize * ro.g.nArena) pg → K pg)
include hro hK

theorem Leak.allocate {σ : St} {a n : Nat} (h : Cov ro.g K 0 noPage σ) :
    LP ro (HM.allocate ro a n) (Alloced ro.g K (fun _ _ => True) σ) σ := by
  unfold HM.allocate
  by_cases hn : n ≤ ro.g.maxSlab
  · rw [if_pos hn]
    exact (Leak.smallAlloc hro hK h hn).mono fun _ σ' k => ⟨k.2, fun q hq => by rw [k.1]; exact hq, fun _ _ => trivial⟩
  · rw [if_neg hn]
    exact (Leak.allocateLarge h).mono fun _ σ' k => ⟨k.1, k.2.1, fun _ _ => trivial⟩

theorem Leak.alloc {σ : St} {a n : Nat} (h : Cov ro.g K 0 noPage σ) : LP ro (HM.alloc ro a n) (fun _ σ' => Cov ro.g K 0 noPage σ') σ := by
  unfold HM.alloc
  refine LP.andThen (LP.unseal ?_)
  refine LP.seq (Leak.allocate hro hK h) fun r σ1 h1 => ?_
  exact LP.andThen (LP.sealM (LP.pure h1.1))

theorem Leak.allocateAligned {σ : St} {a al n mn : Nat} (h : Cov ro.g K 0 noPage σ) (hn : n < W64) (hal : al < W64) (hmn : 0 < mn) :
    LP ro (HM.allocateAligned ro a al n mn) (fun _ σ' => Cov ro.g K 0 noPage σ') σ := by
  unfold HM.allocateAligned
  by_cases h1 : (sub64 al 1 &&& al) ≠ 0 ∨ al < mn
  · rw [if_pos h1]; exact LP.pure h
  rw [if_neg h1]
  simp only [not_or, not_not, Nat.not_lt] at h1
  obtain ⟨k, hk, rfl⟩ := pow_of_mask hal (by omega) h1.1
  have hA : ∀ n, LP ro (do match ← HM.allocate ro a n with
          | none => return Except.error ENOMEM
          | some p => return .ok p) (fun _ σ' => Cov ro.g K 0 noPage σ') σ := fun n => by
    refine LP.seq (Leak.allocate hro hK h) fun r σ1 h1 => ?_
    cases r <;> exact LP.pure h1.1
  by_cases h2 : (2 : Nat) ^ k ≤ PAGE
  · rw [if_pos h2]
    by_cases h3 : n ≤ ro.g.maxSlab ∧ 16 < (2 : Nat) ^ k
    · rw [if_pos h3]
      cases getSizeInfoAlign ro.g n (2 ^ k) with
      | none => exact LP.die
      | some i => exact hA _
    · rw [if_neg h3]; exact hA _
  · rw [if_neg h2]
    have h12 : 12 ≤ k := by
      by_contra hh
      exact h2 (Nat.pow_le_pow_right (by decide) (by omega : k ≤ 12))
    refine LP.seq (Leak.allocateOverAligned h hn h12 hk) fun r σ1 h1 => ?_
    cases r <;> exact LP.pure h1

theorem Leak.allocAligned {σ : St} {a al n mn : Nat} (h : Cov ro.g K 0 noPage σ) (hn : n < W64) (hal : al < W64) (hmn : 0 < mn) :
    LP ro (HM.allocAligned ro a al n mn) (fun _ σ' => Cov ro.g K 0 noPage σ') σ := by
  unfold HM.allocAligned
  refine LP.andThen (LP.unseal ?_)
  refine LP.seq (Leak.allocateAligned hro hK h (adjust_lt hn) hal hmn) fun r σ1 h1 => ?_
  exact LP.andThen (LP.sealM (LP.pure h1))

theorem Leak.allocAlignedSimple {σ : St} {a al n : Nat} (h : Cov ro.g K 0 noPage σ) (hn : n < W64) (hal : al < W64) :
    LP ro (HM.allocAlignedSimple ro a al n) (fun _ σ' => Cov ro.g K 0 noPage σ') σ := by
  unfold HM.allocAlignedSimple
  refine LP.seq (Leak.allocAligned hro hK h hn hal (by decide)) fun r σ1 h1 => ?_
  cases r with
  | error e => exact LP.andThen (LP.setErrno (LP.pure h1))
  | ok p => exact LP.pure h1

theorem Leak.hCalloc {σ : St} {a n k : Nat} (h : Cov ro.g K 0 noPage σ) : LP ro (HM.hCalloc ro a n k) (fun _ σ' => Cov ro.g K 0 noPage σ') σ := by
  unfold HM.hCalloc
  split
  · exact LP.andThen (LP.setErrno (LP.pure h))
  · simp only
    refine LP.seq (Leak.alloc hro hK h) fun r σ1 h1 => ?_
    cases r with
    | none => exact LP.pure h1
    | some p =>
      simp only
      split
      · exact LP.andThen (LP.memZero fun vm hv => LP.pure (h1.vm fun pg k => by rw [← hv]; exact k))
      · exact LP.pure h1

theorem Leak.reallocCopy {σ : St} {a old os n : Nat} (h : Cov ro.g K 0 noPage σ) (hp : old < W64) :
    LP ro (HM.reallocCopy ro a old os n) (fun _ σ' => Cov ro.g K 0 noPage σ') σ := by
  unfold HM.reallocCopy
  refine LP.seq (Leak.allocate hro hK h) fun r σ1 h1 => ?_
  cases r with
  | none => exact LP.andThen (LP.sealM (LP.pure h1.1))
  | some q =>
    refine LP.andThen (LP.memCopy fun vm hv => ?_)
    have h2 : Cov ro.g K 0 noPage { σ1 with vm := vm } := h1.1.vm fun pg k => by rw [← hv]; exact k
    split
    · refine LP.seq (Leak.smallFree hro hK h2 hp) fun _ σ3 h3 => ?_
      exact LP.andThen (LP.sealM (LP.pure h3.2))
    · refine LP.seq (Leak.deallocateLarge h2) fun _ σ3 h3 => ?_
      exact LP.andThen (LP.sealM (LP.pure h3))

omit hro hK in
theorem Leak.reallocShrink {σ : St} {r : RegionMeta} {n : Nat} (h : Cov ro.g K 0 noPage σ) (hi : Inv ro σ) (hr : σ.rt.Has r) (hrk : RegOk r)
    (hn : n % PAGE = 0) (h1 : 16384 < n) (h2 : n < r.size) : LP ro (HM.reallocShrink ro r.p r.size r.guard n) (fun _ σ' => Cov ro.g K 0 noPage σ') σ := by
  have hs := hrk.big (by omega)
  have k1 := hrk.pmod
  have k2 := hrk.gmod
  have k3 := hrk.lo
  have k4 := hrk.gpos
  -- the block no longer accounts for its pages
  have h0 : Cov ro.g K r.p r.pages σ := by
    intro pg hpg
    rcases h pg hpg with k | ⟨q, hq, hq0, k⟩ | k | k
    · exact Or.inl k
    · by_cases e : q.p = r.p
      · rw [hi.unique hq hr e] at k; exact Or.inr (Or.inr (Or.inr k))
      · exact Or.inr (Or.inl ⟨q, hq, e, k⟩)
    · exact Or.inr (Or.inr (Or.inl k))
    · exact k.elim
  unfold HM.reallocShrink
  refine LP.andThen (LP.mapFixed ?_)
  rw [if_neg (by simp)]
  have h3 : Cov ro.g K r.p (fun pg => RegionMeta.pages ⟨r.p, n, r.guard⟩ pg ∨ Ext (r.p + n + r.guard) (r.size - n) 0 pg)
      { σ with vm := (σ.vm.setProt (r.p + n) r.guard .none).zeroPages (r.p + n) r.guard } := by
    refine h0.map.mono ?_
    unfold RegionMeta.pages Ext inPages
    intro pg k
    simp only
    omega
  refine LP.seq (Leak.quarantineDeallocatePages h3 (by omega) (by omega)) ?_
  rintro _ σ1 ⟨e1, h4⟩
  refine LP.seq (Leak.resizeRegion h4 (by rw [e1]; exact hr) fun _ k => k) fun _ σ2 h5 => ?_
  exact LP.andThen (LP.sealM (LP.pure h5))

omit hro hK in
theorem Leak.reallocMove {σ : St} {r : RegionMeta} {n : Nat} (h : Cov ro.g K 0 noPage σ) (hr : σ.rt.Has r) (hrk : RegOk r)
    (hn : n < W64) (h0 : getLargeSizeClass ro.g n ≠ 0) :
    LP ro (HM.reallocMove ro r.p r.size r.guard n) (fun _ σ' => Cov ro.g K 0 noPage σ') σ := by
  have k1 := hrk.pmod
  have k2 := hrk.gmod
  have k3 := hrk.lo
  have k4 := hrk.gpos
  have k5 := hrk.hi
  unfold HM.reallocMove
  refine LP.seq (Leak.allocateLarge h) fun o σ1 h1 => ?_
  obtain ⟨h1, h2, h3⟩ := h1
  cases o with
  | none => exact LP.andThen (LP.sealM (LP.pure h1))
  | some q =>
    obtain ⟨⟨gd, h3⟩, h4⟩ := h3 q rfl
    refine LP.seq (Leak.removeRegion h1) ?_
    rintro b σ2 ⟨hi1, r', hr', e', -, rfl, hh, h5⟩
    have er := hi1.unique hr' (h2 r hr) e'
    subst er
    have hq : σ2.rt.Has ⟨q, getLargeSizeClass ro.g n, gd⟩ := (hh _).mpr ⟨h3, fun e => h4 _ hr (by rw [← e])⟩
    refine LP.andThen (LP.remap fun vm hv => ?_)
    rw [if_neg (by simp)]
    have h6 : Cov ro.g K 0 (fun pg => r'.pages pg ∧ ¬ inPages r'.p r'.size pg) { σ2 with vm := vm } := by
      intro pg hpg
      have hpg : vm.prot pg ≠ .unmapped := hpg
      rw [hv] at hpg
      by_cases c1 : inPages q n pg
      · refine Or.inr (Or.inl ⟨_, hq, hq.1, ?_⟩)
        have := (getLargeSizeClass_ok ro.g hn h0).1
        unfold RegionMeta.pages
        unfold inPages at *
        simp only
        omega
      · rw [if_neg c1] at hpg
        by_cases c2 : inPages r'.p r'.size pg
        · rw [if_pos c2] at hpg; exact absurd rfl hpg
        · rw [if_neg c2] at hpg
          rcases h5 pg hpg with k | k | k | k | k
          · exact Or.inl k
          · exact Or.inr (Or.inl k)
          · exact Or.inr (Or.inr (Or.inl k))
          · exact k.elim
          · exact Or.inr (Or.inr (Or.inr ⟨k, c2⟩))
    refine LP.andThen (LP.unmap (LP.andThen (LP.unmap ?_)))
    refine LP.andThen (LP.sealM (LP.pure ?_))
    refine h6.unmap.unmap.mono ?_
    rintro pg ⟨⟨⟨c1, c2⟩, c3⟩, c4⟩
    rw [pageAlign_of_lt (by unfold pageUp at k5; omega)] at c4
    unfold RegionMeta.pages at c1
    unfold pageUp inPages at *
    omega

theorem Leak.reallocLarge {σ : St} {a old n : Nat} (h : Cov ro.g K 0 noPage σ) (hp : old < W64) (hn : n < W64)
    (h1 : ro.g.maxSlab < n → getLargeSizeClass ro.g n ≠ 0 ∧ n % PAGE = 0) :
    LP ro (HM.reallocLarge ro a old n) (fun _ σ' => Cov ro.g K 0 noPage σ') σ := by
  have hms : 16384 ≤ ro.g.maxSlab := by rcases maxSlab_cases ro.g with ⟨_, e⟩ | ⟨_, e⟩ <;> omega
  unfold HM.reallocLarge
  refine LP.andThen (LP.unseal (LP.andThen (LP.findRegion fun r hi hr e hrk => ?_)))
  subst e
  simp only
  split
  · exact LP.andThen (LP.sealM (LP.pure h))
  split
  · rename_i c
    exact Leak.reallocShrink h hi hr hrk (h1 c.1).2 (by omega) c.2
  split
  · rename_i c
    exact Leak.reallocMove h hr hrk hn (h1 c.1).1
  · exact Leak.reallocCopy hro hK h hp

theorem Leak.reallocSized {σ : St} {a old n : Nat} (h : Cov ro.g K 0 noPage σ) (hp : old < W64) (hn : n < W64)
    (h1 : ro.g.maxSlab < n → getLargeSizeClass ro.g n ≠ 0 ∧ n % PAGE = 0) :
    LP ro (HM.reallocSized ro a old n) (fun _ σ' => Cov ro.g K 0 noPage σ') σ := by
  unfold HM.reallocSized
  split
  · simp only
    split
    · exact LP.pure h
    · exact LP.andThen (LP.unseal (Leak.reallocCopy hro hK h hp))
  · exact Leak.reallocLarge hro hK h hp hn h1

theorem Leak.hRealloc {σ : St} {a old n : Nat} (h : Cov ro.g K 0 noPage σ) (hp : old < W64) (hn : n < W64) :
    LP ro (HM.hRealloc ro a old n) (fun _ σ' => Cov ro.g K 0 noPage σ') σ := by
  have hadj := adjust_lt (g := ro.g) hn
  have hms : 16384 ≤ ro.g.maxSlab := by rcases maxSlab_cases ro.g with ⟨_, e⟩ | ⟨_, e⟩ <;> omega
  unfold HM.hRealloc
  simp only
  split
  · exact Leak.alloc hro hK h
  split
  · rename_i hb
    split
    · exact LP.andThen (LP.setErrno (LP.pure h))
    · rename_i hz
      obtain ⟨k1, k2, k3⟩ := getLargeSizeClass_ok ro.g hadj hz
      have hid := c15_idempotent ro.g _ (by omega) hadj hz
      exact Leak.reallocSized hro hK h hp k2 fun _ => ⟨by rw [hid]; exact hz, k3 (by omega)⟩
  · rename_i hb
    exact Leak.reallocSized hro hK h hp hadj fun hc => absurd hc hb

theorem Leak.hFree {σ : St} {p : Nat} (h : Cov ro.g K 0 noPage σ) (hp : p < W64) : LP ro (HM.hFree ro p) (fun _ σ' => Cov ro.g K 0 noPage σ') σ := by
  unfold HM.hFree
  split
  · exact LP.pure h
  split
  · refine LP.andThen (LP.unseal ?_)
    refine LP.seq (Leak.smallFree hro hK h hp) fun _ σ1 h1 => LP.sealM h1.2
  · refine LP.andThen (LP.getErrno fun e => ?_)
    refine LP.seq (Leak.deallocateLarge h) fun _ σ1 h1 => LP.andThen (LP.setErrno (LP.sealM h1))

theorem Leak.hFreeSized {σ : St} {p n : Nat} (h : Cov ro.g K 0 noPage σ) (hp : p < W64) :
    LP ro (HM.hFreeSized ro p n) (fun _ σ' => Cov ro.g K 0 noPage σ') σ := by
  unfold HM.hFreeSized
  split
  · exact LP.pure h
  simp only
  split
  · refine LP.andThen (LP.unseal ?_)
    refine LP.seq (Leak.smallFree hro hK h hp) fun _ σ1 h1 => LP.sealM h1.2
  · refine LP.seq (Leak.deallocateLarge h) fun _ σ1 h1 => LP.sealM h1

theorem Leak.trimClasses {a : Nat} (ha : a < ro.g.nArena) (n : Nat) : ∀ {σ : St} {c : Nat} {t : Bool}, Cov ro.g K 0 noPage σ → c + n ≤ nClasses ro.g →
    LP ro (HM.trimClasses ro a n c t) (fun _ σ' => Cov ro.g K 0 noPage σ') σ := by
  induction n with
  | zero => exact fun h _ => LP.pure h
  | succ n ih =>
    intro σ c t h hc
    exact LP.seq (Leak.smallTrim hro hK h ha (by omega)) fun t' σ1 h1 => ih h1.2 (by omega)

theorem Leak.trimArenas (n : Nat) : ∀ {σ : St} {a : Nat} {t : Bool}, Cov ro.g K 0 noPage σ → a + n ≤ ro.g.nArena →
    LP ro (HM.trimArenas ro n a t) (fun _ σ' => Cov ro.g K 0 noPage σ') σ := by
  have hpos : 1 ≤ nClasses ro.g := by unfold nClasses; cases ro.g.extended <;> decide
  induction n with
  | zero => exact fun h _ => LP.pure h
  | succ n ih =>
    intro σ a t h ha
    exact LP.seq (Leak.trimClasses hro hK (by omega) _ h (by omega)) fun t' σ1 h1 => ih h1 (by omega)

omit hro hK in
theorem Leak.sumClasses {a : Nat} (n : Nat) : ∀ {σ : St} {c : Nat} {t : Nat × Nat}, Cov ro.g K 0 noPage σ →
    LP ro (HM.sumClasses ro a n c t) (fun _ σ' => Cov ro.g K 0 noPage σ') σ := by
  induction n with
  | zero => exact fun h => LP.pure h
  | succ n ih => exact fun h => LP.andThen (LP.readClassStats fun b => ih h)

omit hro hK in
theorem Leak.sumArenas (n : Nat) : ∀ {σ : St} {a : Nat} {t : Nat × Nat}, Cov ro.g K 0 noPage σ →
    LP ro (HM.sumArenas ro n a t) (fun _ σ' => Cov ro.g K 0 noPage σ') σ := by
  induction n with
  | zero => exact fun h => LP.pure h
  | succ n ih => exact fun h => LP.seq (Leak.sumClasses _ h) fun _ _ h1 => ih h1

/-- Every call accounts for every page it maps. -/
theorem Leak.call {σ : St} {a : Nat} {c : Call} (h : Cov ro.g K 0 noPage σ) (hok : c.Ok) :
    LP ro (c.prog ro a) (fun _ σ' => Cov ro.g K 0 noPage σ') σ := by
  cases c with
  | malloc n => exact LP.seq (Leak.alloc hro hK h) fun _ _ h => LP.pure h
  | calloc n k => exact LP.seq (Leak.hCalloc hro hK h) fun _ _ h => LP.pure h
  | realloc p n => exact LP.seq (Leak.hRealloc hro hK h hok.1 hok.2) fun _ _ h => LP.pure h
  | posixMemalign al n => exact LP.seq (Leak.allocAligned hro hK h hok.2 hok.1 (by decide)) fun _ _ h => LP.pure h
  | alignedAlloc al n => exact LP.seq (Leak.allocAlignedSimple hro hK h hok.2 hok.1) fun _ _ h => LP.pure h
  | valloc n => exact LP.seq (Leak.allocAlignedSimple hro hK h hok (by decide)) fun _ _ h => LP.pure h
  | pvalloc n =>
    refine LP.seq (R := fun _ σ' => Cov ro.g K 0 noPage σ') ?_ fun _ _ h => LP.pure h
    unfold hPvalloc
    split
    · exact LP.andThen (LP.setErrno (LP.pure h))
    · exact Leak.allocAlignedSimple hro hK h (by rw [pageAlign_eq]; omega) (by decide)
  | free p => exact LP.seq (Leak.hFree hro hK h hok) fun _ _ h => LP.pure h
  | freeSized p n => exact LP.seq (Leak.hFreeSized hro hK h hok.1) fun _ _ h => LP.pure h
  | usableSize p =>
    refine LP.seq (R := fun _ σ' => Cov ro.g K 0 noPage σ') ?_ fun _ _ h => LP.pure h
    unfold hUsableSize
    split
    · exact LP.pure h
    split
    · exact LP.andThen (LP.unseal (LP.andThen (LP.smallCheck fun _ => LP.andThen (LP.sealM (LP.pure h)))))
    · exact LP.andThen (LP.unseal (LP.andThen (LP.findRegion fun _ _ _ _ _ => LP.andThen (LP.sealM (LP.pure h)))))
  | objectSize p =>
    refine LP.seq (R := fun _ σ' => Cov ro.g K 0 noPage σ') ?_ fun _ _ h => LP.pure h
    unfold hObjectSize
    split
    · exact LP.pure h
    split
    · exact LP.andThen (LP.unseal (LP.andThen (LP.smallOffset fun _ => LP.andThen (LP.sealM (LP.pure h)))))
    · exact LP.andThen (LP.unseal (LP.andThen (LP.largeObjectSize fun _ => LP.andThen (LP.sealM (LP.pure h)))))
  | objectSizeFast p =>
    refine LP.seq (R := fun _ σ' => Cov ro.g K 0 noPage σ') ?_ fun _ _ h => LP.pure h
    unfold hObjectSizeFast
    split
    · exact LP.pure h
    split <;> exact LP.pure h
  | trim =>
    refine LP.seq (R := fun _ σ' => Cov ro.g K 0 noPage σ') ?_ fun _ _ h => LP.pure h
    unfold hTrim
    refine LP.andThen (LP.unseal ?_)
    exact LP.seq (Leak.trimArenas hro hK _ h (by omega)) fun _ _ h => LP.andThen (LP.sealM (LP.pure h))
  | mallinfo =>
    refine LP.seq (R := fun _ σ' => Cov ro.g K 0 noPage σ') ?_ fun _ _ h => LP.pure h
    unfold hMallinfo
    split
    · refine LP.andThen (LP.unseal (LP.andThen (LP.readLargeStats fun _ => ?_)))
      exact LP.seq (Leak.sumArenas _ h) fun _ _ h => LP.andThen (LP.sealM (LP.pure h))
    · exact LP.pure h

end

/-- In every state that can be reached, every mapped page is accounted for. -/
theorem cov_steps {g : Cfg} {ar : Nat → Nat} {D : Client} {h : List Ev} {s : Sys} {σ0 : St} {tl : Nat → Tl} (hg : Good g ar)
    (hi : Initialised g ro σ0) (htl : ∀ t, (tl t).unsealed = false) (r : Steps ro ar true D [] ⟨σ0, tl⟩ h s) :
    Cov g (fun pg => σ0.vm.prot pg ≠ .unmapped ∨ foreign h pg = true) 0 noPage s.σ := by
  have hro := hi.roOk hg.valid hg.freeQ
  have hcfg : ro.g = g := hi.post.cfg
  have f0 := (fits_init (ar := ar) hg hi htl true).1
  have hK : ∀ pg, inPages ro.slabStart (ro.arenaSize * ro.g.nArena) pg → σ0.vm.prot pg ≠ .unmapped := fun pg hp =>
    f0.linked.inv.mapped pg (by rw [(f0.linked.inv.slabOwn pg).mpr hp]; simp)
  rw [← hcfg]
  induction r with
  | refl => exact fun pg h => Or.inl (Or.inl h)
  | @other evs s hr pg pr data hp ih =>
    intro q hq
    have hq : (if q = pg then pr else s.σ.vm.prot q) ≠ .unmapped := hq
    have hf : foreign (.foreign pg (pr != .unmapped) :: evs) q = if q = pg then (pr != .unmapped) else foreign evs q := rfl
    by_cases e : q = pg
    · rw [if_pos e] at hq hf
      exact Or.inl (Or.inr (by rw [hf]; simpa using hq))
    · rw [if_neg e] at hq hf
      rcases ih q hq with k | k | k | k
      · exact Or.inl (k.imp_right fun k => by rw [hf]; exact k)
      · exact Or.inr (Or.inl k)
      · exact Or.inr (Or.inr (Or.inl k))
      · exact k.elim
  | @step evs s s' a e hr ha hd hs ih =>
    cases a with
    | store x v =>
      cases hs
      exact ih.vm fun pg k => by rw [appStore_prot] at k; exact k
    | errno t e => cases hs; exact ih
    | call t c chs =>
      obtain ⟨w, f, _⟩ := hr.fits hro (fun t => by rw [hcfg]; exact hg.arena t) f0
      have f := f.setTags none
      have hw := call_wp (a := ar t) (c := c) (t := t) (tl := s.tl t) hro (f.linked.ready t) (f.tl t) (by rw [hcfg]; exact hg.arena t) ha.1
      have hl := Leak.call hro (fun pg hp => Or.inl (hK pg hp)) (a := ar t) (c := c) ih ha.1
      rw [show s.σ = ((w.setTags none).lend t).σ from f.σ.symm] at hl
      simp only [Sys.step, Sys.call] at hs
      cases e : (c.prog ro (ar t)).run chs s.σ (s.tl t) with
      | ok r =>
        obtain ⟨σ', tl', b⟩ := r
        rw [e] at hs
        cases hs
        have hrun : (c.prog ro (ar t)).run chs ((w.setTags none).lend t).σ (s.tl t) = .ok (σ', tl', b) := by rw [show ((w.setTags none).lend t).σ = s.σ from f.σ]; exact e
        have hfin := LP.run hw hl (f.linked.ready t).inv f.calm ha.2 (fun _ _ e => nomatch e) hrun
        exact hfin
      | fatal m => rw [e] at hs; cases hs
      | segv => rw [e] at hs; cases hs
      | ub _ => rw [e] at hs; cases hs
      | hang => rw [e] at hs; cases hs

end HM
