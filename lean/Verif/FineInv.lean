import Verif.Fine
import Verif.ConcInv
/-
Whatever happens with overlapping lock sections is also possible when they are executed one after the other.
-/
namespace HM

/-! ### States and their parts -/

theorem St.agree.symm {σ τ : St} {c : Cell} (h : σ.agree τ c) : τ.agree σ c := by
  cases c with
  | regs => exact ⟨h.1.symm, h.2.1.symm, h.2.2.1.symm, h.2.2.2.1.symm, h.2.2.2.2.symm⟩
  | _ => exact Eq.symm h

theorem St.agree.trans {σ τ ρ : St} {c : Cell} (h : σ.agree τ c) (k : τ.agree ρ c) : σ.agree ρ c := by
  cases c with
  | regs => exact ⟨h.1.trans k.1, h.2.1.trans k.2.1, h.2.2.1.trans k.2.2.1, h.2.2.2.1.trans k.2.2.2.1, h.2.2.2.2.trans k.2.2.2.2⟩
  | _ => exact Eq.trans h k

theorem St.agree.rfl {σ : St} {c : Cell} : σ.agree σ c := by
  cases c with
  | regs => exact ⟨Eq.refl _, Eq.refl _, Eq.refl _, Eq.refl _, Eq.refl _⟩
  | _ => exact Eq.refl _

/-- States that agree on all parts are equal. -/
theorem St.ext_agree {σ τ : St} (h : ∀ c, σ.agree τ c) : σ = τ := by
  obtain ⟨h1, h2, h3, h4, h5⟩ := h .regs
  have hv : σ.vm = τ.vm := by
    have e1 : σ.vm.prot = τ.vm.prot := funext fun pg => h (.prot pg)
    have e2 : σ.vm.mem = τ.vm.mem := funext fun x => h (.mem x)
    cases hσ : σ.vm; cases hτ : τ.vm
    rw [hσ, hτ] at e1 e2
    cases e1; cases e2; rfl
  have hs : σ.sc = τ.sc := funext fun a => funext fun c => h (.sc a c)
  cases σ; cases τ
  simp only at *
  subst hv hs h1 h2 h3 h4 h5
  rfl

theorem St.patch_in {σ ν : St} {N : Cell → Prop} {c : Cell} (h : N c) : (σ.patch N ν).agree ν c := by
  cases c with
  | regs => exact ⟨if_pos h, if_pos h, if_pos h, if_pos h, if_pos h⟩
  | _ => exact if_pos h

theorem St.patch_out {σ ν : St} {N : Cell → Prop} {c : Cell} (h : ¬ N c) : (σ.patch N ν).agree σ c := by
  cases c with
  | regs => exact ⟨if_neg h, if_neg h, if_neg h, if_neg h, if_neg h⟩
  | _ => exact if_neg h

/-- A state that differs from `σ` only in the parts `N` is `σ` patched there. -/
theorem St.eq_patch {σ ν : St} {N : Cell → Prop} (h : ∀ c, ¬ N c → ν.agree σ c) : ν = σ.patch N ν :=
  St.ext_agree fun c => by
    by_cases k : N c
    · exact (St.patch_in k).symm
    · exact (h c k).trans (St.patch_out k).symm

/-! ### What sections use -/

variable {ro : Ro} {g : Cfg} {ar : Nat → Nat} {calm : Bool} {h : List CEv} {w : World}

theorem Sect.uses_congr {s : Sect} {σ τ : St} (h : ∀ c, s.uses ro σ c → τ.agree σ c) : s.uses ro τ = s.uses ro σ := by
  funext c
  cases s with
  | regions _ => cases c <;> rfl
  | cls a k fr =>
    have e : τ.sc a k = σ.sc a k := h (.sc a k) ⟨rfl, rfl⟩
    cases c <;> simp only [Sect.uses, e]

theorem Sect.upsets_congr {s : Sect} {σ τ : St} (h : ∀ c, s.uses ro σ c → τ.agree σ c) : s.upsets ro τ = s.upsets ro σ := by
  funext c
  unfold Sect.upsets
  rw [Sect.uses_congr h]
  cases s with
  | regions _ => rfl
  | cls a k fr =>
    have e : τ.sc a k = σ.sc a k := h (.sc a k) ⟨rfl, rfl⟩
    cases c <;> simp only [e]

/-- A page of the slabs of a class contains a byte of them. -/
theorem uses_page (hro : RoOk ro) {a c pg : Nat} (ha : a < ro.g.nArena) (hc : c < nClasses ro.g)
    (hp : inPages (ro.regionStart a c) (ro.g.metaMax c * ro.g.slabSize c) pg) : ClassMem ro a c (pg * PAGE) := by
  have h1 := (hro.base ha hc).mod
  have h2 := (classGeo ro.g hc).slab_mod
  have h3 : ro.g.metaMax c * ro.g.slabSize c % PAGE = 0 := by rw [Nat.mul_mod, h2]; simp
  unfold inPages at hp
  unfold ClassMem inRange
  omega

/-- Sections with different locks use different parts. -/
theorem Sect.uses_disjoint (hro : RoOk ro) {s u : Sect} {σ τ : St} (hs : s.Exists ro) (hu : u.Exists ro) (hn : ¬ s.sameLock u) {c : Cell}
    (h1 : s.uses ro σ c) (h2 : u.uses ro τ c) : False := by
  cases s with
  | regions _ =>
    cases u with
    | regions _ => exact hn trivial
    | cls a k fr => cases c <;> first | exact h1 | exact h2
  | cls a k fr =>
    cases u with
    | regions _ => cases c <;> first | exact h1 | exact h2
    | cls a' k' fr' =>
      refine hn ?_
      cases c with
      | regs => exact h1.elim
      | sc i j => exact ⟨h1.1.symm.trans h2.1, h1.2.symm.trans h2.2⟩
      | prot pg => exact classMem_inj hro hs.1 hs.2 hu.1 hu.2 (uses_page hro hs.1 hs.2 h1) (uses_page hro hu.1 hu.2 h2)
      | mem x => exact classMem_inj hro hs.1 hs.2 hu.1 hu.2 h1.1 h2.1

/-- The pages that a section uses belong to slabs. -/
theorem Sect.uses_prot (hro : RoOk ro) (hi : GInv ro w) {s : Sect} {σ : St} (hs : s.Exists ro) {pg : Nat} (h : s.uses ro σ (.prot pg)) : w.G.own pg = .slab := by
  cases s with
  | regions _ => exact h.elim
  | cls a k fr =>
    have := hi.class_own hro hs.1 hs.2 (uses_page hro hs.1 hs.2 h)
    rwa [Nat.mul_div_cancel _ (by decide : 0 < PAGE)] at this

theorem Sect.uses_mem (hro : RoOk ro) (hi : GInv ro w) {s : Sect} {σ : St} (hs : s.Exists ro) {x : Nat} (h : s.uses ro σ (.mem x)) : w.G.own (x / PAGE) = .slab := by
  cases s with
  | regions _ => exact h.elim
  | cls a k fr => exact hi.class_own hro hs.1 hs.2 h.1

/-- The block that a section frees, if any, belongs to thread `t`. -/
def Sect.freesOf (w : World) (t : Nat) : Sect → Prop
  | .cls _ _ fr => ∀ p, fr = some p → w.G.blk p = .thr t
  | .regions _ _ => True

/-- A section does not use a byte of a block of somebody else. -/
theorem user_unused (hro : RoOk ro) (hi : GInv ro w) {s : Sect} {t p x : Nat} (hs : s.Exists ro) (hf : s.freesOf w t)
    (hb : w.G.blk p ≠ .thr t) (hu : UserByte ro w p x) : ¬ s.uses ro w.σ (.mem x) ∧ ¬ s.upsets ro w.σ (.prot (x / PAGE)) := by
  cases s with
  | regions _ => exact ⟨fun h => h, fun h => h.1⟩
  | cls a c fr =>
    have key : ClassMem ro a c x → InUse ro.g (ro.regionStart a c) c (w.σ.sc a c) fr x := by
      intro hx
      rcases hu with ⟨a', c', i, k, h1, h2, h3⟩ | ⟨sz, gd, h1, h3⟩
      · obtain ⟨hil, hkl, _⟩ := h1.lt hi
        obtain ⟨ha', hc', rfl, hl⟩ := h1
        obtain ⟨rfl, rfl⟩ := classMem_inj hro hs.1 hs.2 ha' hc' hx (slot_classMem hc' hil hkl (by unfold inRange at *; omega))
        refine ⟨i, k, hl, fun e => hb (hf _ e), h2, h3⟩
      · have e1 := hi.class_own hro hs.1 hs.2 hx
        rw [hi.reg_body h1 (inPages_of_pageUp (hi.reg _ h1).pmod h3)] at e1
        exact absurd e1 (by simp)
    refine ⟨fun h => h.2 (key h.1), fun h => h.2 x rfl (key ?_)⟩
    have := uses_page hro hs.1 hs.2 h.1
    exact classMem_page hro hs.1 hs.2 this (by rw [Nat.mul_div_cancel _ (by decide : 0 < PAGE)])

/-! ### The invariant -/

/-- How the running sections relate to the settled state `v`. -/
structure FineOk (ro : Ro) (s : FineSys) (v : St) : Prop where
  settled : Settled ro s v
  exist : ∀ t x, s.sec t = some x → x.sect.Exists ro
  head : ∀ t x, s.sec t = some x → ∃ (c : Call) (β : Type) (f : Choice → St → Tl → Res (St × Tl × β)) (k : β → Prog Ret),
    s.run t = some (c, .act (l := some x.sect) f k)
  locks : ∀ t u x y, t ≠ u → s.sec t = some x → s.sec u = some y → ¬ x.sect.sameLock y.sect
  seen : ∀ t x, s.sec t = some x → ∀ ψ ∈ x.now :: x.past, ∀ c, x.sect.uses ro v c → ψ.agree v c
  mapped : ∀ t x pg, s.sec t = some x → x.sect.uses ro v (.prot pg) → s.σ.vm.prot pg ≠ .unmapped

variable {s : FineSys} {v : St}

theorem FineOk.upsets (ok : FineOk ro s v) {t : Nat} {x : FSec} (hx : s.sec t = some x) : x.upsets ro = x.sect.upsets ro v :=
  Sect.upsets_congr (ok.seen t x hx _ List.mem_cons_self)

theorem FineOk.uniq (ok : FineOk ro s v) {v' : St} (h : Settled ro s v') : v' = v := St.ext_agree fun c => by
  by_cases k : ∃ t x, s.sec t = some x ∧ x.upsets ro c
  · obtain ⟨t, x, hx, hc⟩ := k
    exact (h.1 t x c hx hc).trans (ok.settled.1 t x c hx hc).symm
  · have k : ∀ t x, s.sec t = some x → ¬ x.upsets ro c := fun t x hx hc => k ⟨t, x, hx, hc⟩
    exact (h.2 c k).trans (ok.settled.2 c k).symm

/-- Parts that no running section may have in disorder are as in the settled state. -/
theorem FineOk.quiet (ok : FineOk ro s v) {c : Cell} (h : ∀ t x, s.sec t = some x → ¬ x.sect.upsets ro v c) : v.agree s.σ c :=
  ok.settled.2 c fun t x hx => by rw [ok.upsets hx]; exact h t x hx

/-- Only the program changes, and not for the running sections. -/
theorem FineOk.rerun (ok : FineOk ro s v) {tl' : Nat → Tl} {run' : Nat → Option (Call × Prog Ret)} (hr : ∀ u x, s.sec u = some x → run' u = s.run u) :
    FineOk ro ⟨s.σ, tl', run', s.sec⟩ v :=
  ⟨ok.settled, ok.exist, fun t x hx => by
    obtain ⟨c, β, f, k, e⟩ := ok.head t x hx
    exact ⟨c, β, f, k, (hr t x hx).trans e⟩, ok.locks, ok.seen, ok.mapped⟩

/-- Something happens that does not concern the running sections that are kept. -/
theorem FineOk.move (ok : FineOk ro s v) (K : Nat → Prop) {σ' v' : St} {tl' : Nat → Tl} {run' : Nat → Option (Call × Prog Ret)} {sec' : Nat → Option FSec}
    (hsec : ∀ u y, sec' u = some y ↔ K u ∧ ∃ x, s.sec u = some x ∧ y = x.meanwhile s.σ σ')
    (hr : ∀ u x, K u → s.sec u = some x → run' u = s.run u)
    (h1 : ∀ u x, K u → s.sec u = some x → ∀ c, x.sect.uses ro v c → v'.agree v c ∧ σ'.agree s.σ c)
    (h2 : ∀ c, (∀ u x, K u → s.sec u = some x → ¬ x.sect.upsets ro v c) → v'.agree σ' c) :
    FineOk ro ⟨σ', tl', run', sec'⟩ v' := by
  have hu : ∀ u x, K u → s.sec u = some x → x.sect.uses ro v' = x.sect.uses ro v := fun u x hk hx => Sect.uses_congr fun c hc => (h1 u x hk hx c hc).1
  have hup : ∀ u x, K u → s.sec u = some x → x.sect.upsets ro v' = x.sect.upsets ro v := fun u x hk hx => Sect.upsets_congr fun c hc => (h1 u x hk hx c hc).1
  have hseen : ∀ u x, K u → s.sec u = some x → ∀ ψ ∈ (x.meanwhile s.σ σ').now :: (x.meanwhile s.σ σ').past, ∀ c, x.sect.uses ro v' c → ψ.agree v' c := by
    intro u x hk hx ψ hψ c hc
    rw [hu u x hk hx] at hc
    obtain ⟨k1, k2⟩ := h1 u x hk hx c hc
    rcases List.mem_cons.mp hψ with rfl | hψ
    · exact ((St.patch_out (N := fun c => ¬ σ'.agree s.σ c) (not_not.mpr k2)).trans (ok.seen u x hx _ List.mem_cons_self c hc)).trans k1.symm
    · exact (ok.seen u x hx ψ hψ c hc).trans k1.symm
  have hupn : ∀ u x, K u → s.sec u = some x → (x.meanwhile s.σ σ').upsets ro = x.sect.upsets ro v := fun u x hk hx =>
    (Sect.upsets_congr (s := x.sect) (hseen u x hk hx _ List.mem_cons_self)).trans (hup u x hk hx)
  refine ⟨⟨fun t y c hy hc => ?_, fun c hc => h2 c fun u x hk hx hc' => ?_⟩, fun t y hy => ?_, fun t y hy => ?_, fun t u y z hne hy hz => ?_, fun t y hy => ?_, fun t y pg hy hc => ?_⟩
  · obtain ⟨hk, x, hx, rfl⟩ := (hsec t y).mp hy
    rw [hupn t x hk hx] at hc
    exact (hseen t x hk hx _ List.mem_cons_self c (by rw [hu t x hk hx]; exact hc.1)).symm
  · exact hc u _ ((hsec u _).mpr ⟨hk, x, hx, rfl⟩) (by rw [hupn u x hk hx]; exact hc')
  · obtain ⟨hk, x, hx, rfl⟩ := (hsec t y).mp hy
    exact ok.exist t x hx
  · obtain ⟨hk, x, hx, rfl⟩ := (hsec t y).mp hy
    obtain ⟨c, β, f, k, e⟩ := ok.head t x hx
    exact ⟨c, β, f, k, (hr t x hk hx).trans e⟩
  · obtain ⟨hk, x, hx, rfl⟩ := (hsec t y).mp hy
    obtain ⟨hk', x', hx', rfl⟩ := (hsec u z).mp hz
    exact ok.locks t u x x' hne hx hx'
  · obtain ⟨hk, x, hx, rfl⟩ := (hsec t y).mp hy
    exact hseen t x hk hx
  · obtain ⟨hk, x, hx, rfl⟩ := (hsec t y).mp hy
    have hc : x.sect.uses ro v' (.prot pg) := hc
    rw [hu t x hk hx] at hc
    have e : σ'.vm.prot pg = s.σ.vm.prot pg := (h1 t x hk hx _ hc).2
    show σ'.vm.prot pg ≠ _
    rw [e]
    exact ok.mapped t x pg hx hc

theorem meanwhile_iff {σ' : St} (u : Nat) (y : FSec) : s.meanwhile σ' u = some y ↔ True ∧ ∃ x, s.sec u = some x ∧ y = x.meanwhile s.σ σ' := by
  unfold FineSys.meanwhile
  rw [Option.map_eq_some_iff]
  constructor
  · rintro ⟨x, h1, h2⟩; exact ⟨trivial, x, h1, h2.symm⟩
  · rintro ⟨_, x, h1, h2⟩; exact ⟨x, h1, h2.symm⟩

theorem meanwhile_none_iff {σ' : St} (t u : Nat) (y : FSec) : upd (s.meanwhile σ') t none u = some y ↔ u ≠ t ∧ ∃ x, s.sec u = some x ∧ y = x.meanwhile s.σ σ' := by
  unfold upd
  by_cases e : u = t
  · simp [e]
  · rw [if_neg e, meanwhile_iff]
    simp [e]

/-- The block that a running section frees belongs to its thread. -/
theorem FineOk.frees (ok : FineOk ro s v) {start : Nat → St} {n0 : Nat → Nat} (i : CInv ro calm n0 h ⟨v, s.tl, s.run, start⟩ w) {t : Nat} {x : FSec} (hx : s.sec t = some x) :
    x.sect.freesOf w (t + 1) := by
  obtain ⟨c, β, f, k, e⟩ := ok.head t x hx
  have hl := (i.wp e).1 rfl
  have he := ok.exist t x hx
  revert hl he
  cases x.sect with
  | regions _ => exact fun _ _ => trivial
  | cls a k fr =>
    intro hl he
    rcases hl.1 a k fr rfl with h1 | h1
    · exact h1.2.2
    · exact absurd he h1.1

/-- An action that succeeds takes a lock that exists. -/
theorem lock_exists {start : Nat → St} {tl : Nat → Tl} {run : Nat → Option (Call × Prog Ret)} {n0 : Nat → Nat} (i : CInv ro calm n0 h ⟨v, tl, run, start⟩ w) {t : Nat} {c : Call} {β : Type} {x : Sect}
    {f : Choice → St → Tl → Res (St × Tl × β)} {k : β → Prog Ret} (hc : run t = some (c, .act (l := some x) f k)) {ch : Choice} {σ : St} {r : St × Tl × β}
    (hf : f ch σ (tl t) = .ok r) : x.Exists ro := by
  have hl := (i.wp hc).1 rfl
  cases x with
  | regions _ => trivial
  | cls a k fr =>
    rcases hl.1 a k fr rfl with h1 | h1
    · exact ⟨h1.1, h1.2.1⟩
    · exact absurd hf (h1.2 ch σ r)

theorem Res.Rel.ok_right {α β : Type} {R : α → β → Prop} {x : Res α} {b : β} (h : Res.Rel R x (.ok b)) : ∃ a, x = .ok a ∧ R a b := by
  cases x <;> first | exact ⟨_, rfl, h⟩ | exact h.elim

theorem Res.Rel.ok_left {α β : Type} {R : α → β → Prop} {y : Res β} {a : α} (h : Res.Rel R (.ok a) y) : ∃ b, y = .ok b ∧ R a b := by
  cases y <;> first | exact ⟨_, rfl, h⟩ | exact h.elim

/-- What a section does with what it has read. -/
theorem FineOk.section (ok : FineOk ro s v) {start : Nat → St} {n0 : Nat → Nat} (i : CInv ro calm n0 h ⟨v, s.tl, s.run, start⟩ w) {t : Nat} {c : Call} {β : Type} {l : Sect}
    {f : Choice → St → Tl → Res (St × Tl × β)} {k : β → Prog Ret} (hc : s.run t = some (c, .act (l := some l) f k))
    {x : FSec} (hx : s.sec t = some x) {u : St} (hu : x.sees u) {ch : Choice} (he : CEnv calm c ch) :
    l = x.sect ∧ (∀ c, l.uses ro v c → u.agree v c) ∧
    Res.Rel (fun r r' => r' = (r.1.patch (fun c => ¬ l.uses ro v c) u, r.2)) (f ch v (s.tl t)) (f ch u (s.tl t)) ∧
    ∀ r, f ch v (s.tl t) = .ok r → ∀ c, ¬ l.uses ro v c → r.1.agree v c := by
  obtain ⟨c', β', f', k', e⟩ := ok.head t x hx
  have e1 : l = x.sect := by
    have := hc.symm.trans e
    simp only [Option.some.injEq, Prod.mk.injEq, Prog.act.injEq] at this
    exact this.2.2.1
  subst e1
  obtain ⟨ch', hs, hch, _⟩ := i.settle hc he
  have hl := ((i.wp hc).1 rfl).2 ch' (i.env ▸ hs.fair)
  rw [← hch, ← hch]
  have hσ : w.σ = v := i.σ
  rw [hσ] at hl
  have hn : ∀ ν, Noise ro (t + 1) (some x.sect) w (fun c => ¬ x.sect.uses ro v c) ν := fun ν c hc => by rw [hσ] at hc; exact fun h => h hc
  have hsee : ∀ c, x.sect.uses ro v c → u.agree v c := fun c hc => by
    obtain ⟨ψ, hψ, ha⟩ := hu c
    exact ha.trans (ok.seen t x hx ψ hψ c hc)
  refine ⟨rfl, hsee, ?_, fun r hr c hc => ?_⟩
  · have e := St.eq_patch (σ := v) (ν := u) (N := fun c => ¬ x.sect.uses ro v c) fun c hc => hsee c (not_not.mp hc)
    have := hl _ u (hn u)
    rwa [← e] at this
  · have e := St.eq_patch (σ := v) (ν := v) (N := fun c => ¬ x.sect.uses ro v c) fun c _ => St.agree.rfl
    have := hl _ v (hn v)
    rw [← e, hr] at this
    have this : r = (r.1.patch (fun c => ¬ x.sect.uses ro v c) v, r.2) := this
    rw [this]
    exact St.patch_in (N := fun c => ¬ x.sect.uses ro v c) hc

/-- What an action without a lock does in the state as it is in memory. -/
theorem FineOk.plain (hro : RoOk ro) (ok : FineOk ro s v) {start : Nat → St} {n0 : Nat → Nat} (i : CInv ro calm n0 h ⟨v, s.tl, s.run, start⟩ w) {t : Nat} {c : Call} {β : Type}
    {f : Choice → St → Tl → Res (St × Tl × β)} {k : β → Prog Ret} (hc : s.run t = some (c, .act (l := none) f k)) {ch : Choice} (he : CEnv calm c ch) :
    Res.Rel (fun r r' => r' = (r.1.patch (fun c => ∃ u x, s.sec u = some x ∧ x.sect.upsets ro v c) s.σ, r.2)) (f ch v (s.tl t)) (f ch s.σ (s.tl t)) ∧
    ∀ r, f ch v (s.tl t) = .ok r → ∀ u x c, s.sec u = some x → x.sect.uses ro v c → r.1.agree v c := by
  obtain ⟨ch', hs, hch, _⟩ := i.settle hc he
  have hl := ((i.wp hc).1 rfl).2 ch' (i.env ▸ hs.fair)
  rw [← hch, ← hch]
  have hσ : w.σ = v := i.σ
  have hne : ∀ u x, s.sec u = some x → u ≠ t := by
    rintro u x hx rfl
    obtain ⟨c', β', f', k', e⟩ := ok.head u x hx
    have := hc.symm.trans e
    simp only [Option.some.injEq, Prod.mk.injEq, Prog.act.injEq] at this
    exact absurd this.2.2.1 (by simp)
  have hun : ∀ u x p y, s.sec u = some x → w.G.blk p = .thr (t + 1) → UserByte ro w p y → ¬ x.sect.uses ro v (.mem y) ∧ ¬ x.sect.upsets ro v (.prot (y / PAGE)) := by
    intro u x p y hx hb hy
    have := user_unused hro i.inv (ok.exist u x hx) (ok.frees i hx) (p := p) (by rw [hb]; simpa using (hne u x hx).symm) hy
    rwa [hσ] at this
  refine ⟨?_, fun r hr u x c hx hc => ?_⟩
  · have e := St.eq_patch (σ := v) (ν := s.σ) (N := fun c => ∃ u x, s.sec u = some x ∧ x.sect.upsets ro v c) fun c hc =>
      (ok.quiet fun u x hx hu => hc ⟨u, x, hx, hu⟩).symm
    have := hl (fun c => ∃ u x, s.sec u = some x ∧ x.sect.upsets ro v c) s.σ ⟨fun pg => ?_, fun y => ?_⟩
    · rwa [hσ, ← e] at this
    · rintro ⟨u, x, hx, hu⟩
      refine ⟨Sect.uses_prot hro i.inv (ok.exist u x hx) hu.1, ok.mapped u x pg hx hu.1, fun p y hb hy e => ?_⟩
      exact absurd (e ▸ hu) (hun u x p y hx hb hy).2
    · rintro ⟨u, x, hx, hu⟩
      exact ⟨Sect.uses_mem hro i.inv (ok.exist u x hx) hu.1, fun p hb hy => (hun u x p y hx hb hy).1 hu.1⟩
  · have e := St.eq_patch (σ := v) (ν := v) (N := fun c => ∃ u x, s.sec u = some x ∧ x.sect.uses ro v c) fun c _ => St.agree.rfl
    have := hl (fun c => ∃ u x, s.sec u = some x ∧ x.sect.uses ro v c) v ⟨fun pg => ?_, fun y => ?_⟩
    · rw [hσ, ← e, hr] at this
      have this : r = (r.1.patch (fun c => ∃ u x, s.sec u = some x ∧ x.sect.uses ro v c) v, r.2) := this
      rw [this]
      exact St.patch_in (N := fun c => ∃ u x, s.sec u = some x ∧ x.sect.uses ro v c) ⟨u, x, hx, hc⟩
    · rintro ⟨u, x, hx, hu⟩
      have ho := Sect.uses_prot hro i.inv (ok.exist u x hx) hu
      refine ⟨ho, hσ ▸ i.inv.mapped pg (by rw [ho]; simp), fun p y hb hy e => ?_⟩
      rw [← e, ← hσ]
      exact hy.rw hro i.inv
    · rintro ⟨u, x, hx, hu⟩
      exact ⟨Sect.uses_mem hro i.inv (ok.exist u x hx) hu, fun p hb hy => (hun u x p y hx hb hy).1 hu⟩

theorem FReach.roOk (hg : Good g ar) (r : FReach g ro ar calm h s) : RoOk ro ∧ ro.g = g := by
  induction r with
  | init hi _ => exact ⟨hi.roOk hg.valid hg.freeQ, hi.post.cfg⟩
  | _ => assumption

/-- Every history with overlapping sections is one with atomic sections, which leads to the settled state. -/
theorem FReach.atomic (hg : Good g ar) (r : FReach g ro ar calm h s) :
    ∃ v start, CReach g ro ar calm h ⟨v, s.tl, s.run, start⟩ ∧ FineOk ro s v := by
  obtain ⟨hro, _⟩ := r.roOk hg
  induction r with
  | @init σ tl hi htl =>
    exact ⟨σ, _, .init hi htl, ⟨⟨fun _ _ _ e => (by cases e), fun _ _ => St.agree.rfl⟩, fun _ _ e => (by cases e), fun _ _ e => (by cases e),
      fun _ _ _ _ _ e => (by cases e), fun _ _ e => (by cases e), fun _ _ _ e => (by cases e)⟩⟩
  | @invoke h s r t c b hi hok v' hv hl ih =>
    obtain ⟨v, start, q, ok⟩ := ih
    have e := ok.uniq hv
    subst e
    refine ⟨_, _, q.invoke t c b hi hok hl, ok.rerun fun u x hx => if_neg ?_⟩
    rintro rfl
    obtain ⟨_, _, _, _, e⟩ := ok.head u x hx
    exact absurd (hi.symm.trans e) (by simp)
  | @acquire h s r t c β x f k hc hs hx hl ih =>
    obtain ⟨v, start, q, ok⟩ := ih
    obtain ⟨w, _, i⟩ := q.inv hg
    have hσ : w.σ = v := i.σ
    have hq : ∀ c, x.uses ro v c → v.agree s.σ c := fun c hu => ok.quiet fun u y hy hup =>
      Sect.uses_disjoint hro (ok.exist u y hy) hx (hl u y hy) hup.1 hu
    have hu : x.upsets ro s.σ = x.upsets ro v := Sect.upsets_congr fun c hu => (hq c hu).symm
    have new : ∀ u y, upd s.sec t (some ⟨x, s.σ, []⟩) u = some y → (u = t ∧ y = ⟨x, s.σ, []⟩) ∨ (u ≠ t ∧ s.sec u = some y) := by
      intro u y hy
      unfold upd at hy
      by_cases e : u = t
      · rw [if_pos e] at hy; cases hy; exact Or.inl ⟨e, rfl⟩
      · rw [if_neg e] at hy; exact Or.inr ⟨e, hy⟩
    refine ⟨v, start, q, ⟨⟨fun u y c hy hc => ?_, fun c hc => ok.settled.2 c fun u y hy hup => ?_⟩, fun u y hy => ?_, fun u y hy => ?_, fun u u' y y' hne hy hy' => ?_, fun u y hy ψ hψ c hc => ?_, fun u y pg hy hc => ?_⟩⟩
    · rcases new u y hy with ⟨rfl, rfl⟩ | ⟨_, hy⟩
      · have hc : x.upsets ro s.σ c := hc
        rw [hu] at hc
        exact hq c hc.1
      · exact ok.settled.1 u y c hy hc
    · have hne : u ≠ t := fun e => by rw [e, hs] at hy; cases hy
      exact hc u y ((if_neg hne).trans hy) hup
    · rcases new u y hy with ⟨rfl, rfl⟩ | ⟨_, hy⟩
      · exact hx
      · exact ok.exist u y hy
    · rcases new u y hy with ⟨rfl, rfl⟩ | ⟨_, hy⟩
      · exact ⟨c, β, f, k, hc⟩
      · exact ok.head u y hy
    · rcases new u y hy with ⟨rfl, rfl⟩ | ⟨h1, hz⟩ <;> rcases new u' y' hy' with ⟨rfl, rfl⟩ | ⟨h2, hz'⟩
      · exact absurd rfl hne
      · have := hl u' y' hz'
        intro hc
        refine this ?_
        revert hc
        generalize y'.sect = z
        show x.sameLock z → z.sameLock x
        cases x <;> cases z <;> simp only [Sect.sameLock] <;> first | exact fun h => h | exact fun h => ⟨h.1.symm, h.2.symm⟩
      · exact hl u y hz
      · exact ok.locks u u' y y' hne hz hz'
    · rcases new u y hy with ⟨rfl, rfl⟩ | ⟨_, hy⟩
      · have e : ψ = s.σ := by simpa using hψ
        rw [e]
        exact (hq c hc).symm
      · exact ok.seen u y hy ψ hψ c hc
    · rcases new u y hy with ⟨rfl, rfl⟩ | ⟨_, hy⟩
      · have e : v.vm.prot pg = s.σ.vm.prot pg := hq _ hc
        show s.σ.vm.prot pg ≠ _
        rw [← e, ← hσ]
        exact i.inv.mapped pg (by rw [Sect.uses_prot hro i.inv hx hc]; simp)
      · exact ok.mapped u y pg hy hc
  | @write h s r t x hx σ' hd hm ih =>
    obtain ⟨v, start, q, ok⟩ := ih
    have hdis : ∀ u y, u ≠ t → s.sec u = some y → ∀ c, y.sect.uses ro v c → σ'.agree s.σ c := by
      intro u y hne hy c hc
      by_contra hn
      have := hd c hn
      rw [ok.upsets hx] at this
      exact Sect.uses_disjoint hro (ok.exist u y hy) (ok.exist t x hx) (ok.locks u t y x hne hy hx) hc this.1
    have new : ∀ u y, upd (s.meanwhile σ') t (some x) u = some y → (u = t ∧ y = x) ∨ (u ≠ t ∧ ∃ z, s.sec u = some z ∧ y = z.meanwhile s.σ σ') := by
      intro u y hy
      unfold upd at hy
      by_cases e : u = t
      · rw [if_pos e] at hy; cases hy; exact Or.inl ⟨e, rfl⟩
      · rw [if_neg e] at hy; exact Or.inr ⟨e, ((meanwhile_iff u y).mp hy).2⟩
    have hseen : ∀ u z, u ≠ t → s.sec u = some z → ∀ ψ ∈ (z.meanwhile s.σ σ').now :: (z.meanwhile s.σ σ').past, ∀ c, z.sect.uses ro v c → ψ.agree v c := by
      intro u z hne hz ψ hψ c hc
      rcases List.mem_cons.mp hψ with rfl | hψ
      · exact (St.patch_out (N := fun c => ¬ σ'.agree s.σ c) (not_not.mpr (hdis u z hne hz c hc))).trans (ok.seen u z hz _ List.mem_cons_self c hc)
      · exact ok.seen u z hz ψ hψ c hc
    have hups : ∀ u z, u ≠ t → s.sec u = some z → (z.meanwhile s.σ σ').upsets ro = z.sect.upsets ro v := fun u z hne hz =>
      Sect.upsets_congr (s := z.sect) (hseen u z hne hz _ List.mem_cons_self)
    refine ⟨v, start, q, ⟨⟨fun u y c hy hc => ?_, fun c hc => ?_⟩, fun u y hy => ?_, fun u y hy => ?_, fun u u' y y' hne hy hy' => ?_, fun u y hy => ?_, fun u y pg hy hc => ?_⟩⟩
    · rcases new u y hy with ⟨rfl, rfl⟩ | ⟨hne, z, hz, rfl⟩
      · exact ok.settled.1 u y c hx hc
      · rw [hups u z hne hz] at hc
        exact (hseen u z hne hz _ List.mem_cons_self c hc.1).symm
    · have hxc : ¬ x.upsets ro c := hc t x (if_pos rfl)
      have : σ'.agree s.σ c := by_contra fun hn => hxc (hd c hn)
      refine (ok.settled.2 c fun u z hz hup => ?_).trans this.symm
      by_cases e : u = t
      · subst e; rw [hx] at hz; cases hz; exact hxc hup
      · refine hc u _ ((if_neg e).trans ((meanwhile_iff u _).mpr ⟨trivial, z, hz, rfl⟩)) ?_
        rw [hups u z e hz, ← ok.upsets hz]; exact hup
    · rcases new u y hy with ⟨rfl, rfl⟩ | ⟨hne, z, hz, rfl⟩
      · exact ok.exist u y hx
      · exact ok.exist u z hz
    · rcases new u y hy with ⟨rfl, rfl⟩ | ⟨hne, z, hz, rfl⟩
      · exact ok.head u y hx
      · exact ok.head u z hz
    · rcases new u y hy with ⟨rfl, rfl⟩ | ⟨h1, z, hz, rfl⟩ <;> rcases new u' y' hy' with ⟨rfl, rfl⟩ | ⟨h2, z', hz', rfl⟩
      · exact absurd rfl hne
      · exact ok.locks _ _ _ z' hne hx hz'
      · exact ok.locks _ _ z _ hne hz hx
      · exact ok.locks _ _ z z' hne hz hz'
    · rcases new u y hy with ⟨rfl, rfl⟩ | ⟨hne, z, hz, rfl⟩
      · exact ok.seen u y hx
      · exact hseen u z hne hz
    · have : ∀ z, s.sec u = some z → z.sect.uses ro v (.prot pg) → σ'.vm.prot pg ≠ .unmapped := fun z hz hc e => ok.mapped u z pg hz hc (hm pg e)
      rcases new u y hy with ⟨rfl, rfl⟩ | ⟨hne, z, hz, rfl⟩
      · exact this y hx hc
      · exact this z hz hc
  | @release h s r t c β l f k hc x hx u hu ch he τ tl' b hf σ' hσ' ih =>
    obtain ⟨v, start, q, ok⟩ := ih
    obtain ⟨w, _, i⟩ := q.inv hg
    obtain ⟨e, h1, h2, h3⟩ := ok.section i hc hx hu he
    subst e
    rw [hf] at h2
    obtain ⟨⟨τv, tl1, b1⟩, k1, k2⟩ := h2.ok_right
    simp only [Prod.mk.injEq] at k2
    obtain ⟨k2, rfl, rfl⟩ := k2
    have h3 := h3 _ k1
    have hout : ∀ c, ¬ x.sect.uses ro v c → σ'.agree s.σ c := fun c hc => by
      rw [hσ']
      refine St.patch_out fun k => ?_
      rcases k with k | k
      · rw [ok.upsets hx] at k; exact hc k.1
      · refine k ?_
        rw [k2]
        exact St.patch_in (N := fun c => ¬ x.sect.uses ro v c) hc
    have hin : ∀ c, x.sect.uses ro v c → τ.agree τv c := fun c hc => by
      rw [k2]
      exact St.patch_out (N := fun c => ¬ x.sect.uses ro v c) (not_not.mpr hc)
    refine ⟨τv, start, q.step t hc he k1, ok.move (fun u => u ≠ t) (meanwhile_none_iff t) (fun u y hne hy => if_neg hne) (fun u y hne hy c hc => ?_) fun c hn => ?_⟩
    · have hd : ¬ x.sect.uses ro v c := fun hc' =>
        Sect.uses_disjoint hro (ok.exist u y hy) (ok.exist t x hx) (ok.locks u t y x hne hy hx) hc hc'
      exact ⟨h3 c hd, hout c hd⟩
    · have hquiet : ¬ x.sect.upsets ro v c → v.agree s.σ c := fun k => ok.quiet fun u y hy hup => by
        by_cases e : u = t
        · subst e; rw [hx] at hy; cases hy; exact k hup
        · exact hn u y e hy hup
      by_cases hc : x.sect.uses ro v c
      · by_cases k : x.upsets ro c ∨ ¬ τ.agree u c
        · rw [hσ']
          exact (hin c hc).symm.trans (St.patch_in (N := fun c => x.upsets ro c ∨ ¬ τ.agree u c) k).symm
        · have e1 : σ'.agree s.σ c := by rw [hσ']; exact St.patch_out (N := fun c => x.upsets ro c ∨ ¬ τ.agree u c) k
          rw [not_or, not_not, ok.upsets hx] at k
          exact ((((hin c hc).symm.trans k.2).trans (h1 c hc)).trans (hquiet k.1)).trans e1.symm
      · exact ((h3 c hc).trans (hquiet fun k => hc k.1)).trans (hout c hc).symm
  | @plain h s r t c β f k hc ch he σ' tl' b hf ih =>
    obtain ⟨v, start, q, ok⟩ := ih
    obtain ⟨w, _, i⟩ := q.inv hg
    obtain ⟨h2, h3⟩ := ok.plain hro i hc he
    rw [hf] at h2
    obtain ⟨⟨τv, tl1, b1⟩, k1, k2⟩ := h2.ok_right
    simp only [Prod.mk.injEq] at k2
    obtain ⟨k2, rfl, rfl⟩ := k2
    have h3 := h3 _ k1
    have hne : ∀ u x, s.sec u = some x → u ≠ t := by
      rintro u x hx rfl
      obtain ⟨c', β', f', k', e⟩ := ok.head u x hx
      have := hc.symm.trans e
      simp only [Option.some.injEq, Prod.mk.injEq, Prog.act.injEq] at this
      exact absurd this.2.2.1 (by simp)
    refine ⟨τv, start, q.step t hc he k1, ok.move (fun _ => True) meanwhile_iff (fun u y _ hy => if_neg (hne u y hy)) (fun u y _ hy c hc => ⟨h3 u y c hy hc, ?_⟩) fun c hn => ?_⟩
    · by_cases k : ∃ u x, s.sec u = some x ∧ x.sect.upsets ro v c
      · rw [k2]
        exact St.patch_in (N := fun c => ∃ u x, s.sec u = some x ∧ x.sect.upsets ro v c) k
      · have e1 : σ'.agree τv c := by rw [k2]; exact St.patch_out (N := fun c => ∃ u x, s.sec u = some x ∧ x.sect.upsets ro v c) k
        exact (e1.trans (h3 u y c hy hc)).trans (ok.quiet fun u x hx hu => k ⟨u, x, hx, hu⟩)
    · rw [k2]
      exact (St.patch_out (N := fun c => ∃ u x, s.sec u = some x ∧ x.sect.upsets ro v c) fun ⟨u, x, hx, hu⟩ => hn u x trivial hx hu).symm
  | @ret h s r t c x hc ih =>
    obtain ⟨v, start, q, ok⟩ := ih
    refine ⟨_, _, q.ret t hc, ok.rerun fun u x hx => if_neg ?_⟩
    rintro rfl
    obtain ⟨_, _, _, _, e⟩ := ok.head u x hx
    exact absurd (hc.symm.trans e) (by simp)
  | @store h s r x b p n hp v' hv hu h1 h2 σ' hσ' ih =>
    obtain ⟨v, start, q, ok⟩ := ih
    have e := ok.uniq hv
    subst e
    obtain ⟨w, _, i⟩ := q.inv hg
    have hσ : w.σ = v' := i.σ
    have happ := (i.app p).mpr hp
    have hub : UserByte ro w p x := UsableIs.user' (app_eff i.inv happ) ((i.usable_iff hro hp).mp hu) (by unfold inRange; omega)
    have hun : ∀ u y, s.sec u = some y → ¬ y.sect.uses ro v' (.mem x) ∧ ¬ y.sect.upsets ro v' (.prot (x / PAGE)) := fun u y hy => by
      have := user_unused hro i.inv (ok.exist u y hy) (ok.frees i hy) (p := p) (by rw [happ]; simp) hub
      rwa [hσ] at this
    have hst : ∀ (σ : St) c, c ≠ .mem x → ({ σ with vm := σ.vm.appStore x b } : St).agree σ c := by
      intro σ c hc
      cases c with
      | sc a c => rfl
      | regs => exact ⟨rfl, rfl, rfl, rfl, rfl⟩
      | prot pg => show (σ.vm.appStore x b).prot pg = _; rw [appStore_prot]
      | mem y =>
        show (σ.vm.appStore x b).mem y = σ.vm.mem y
        by_contra hn
        exact hc (by rw [(appStore_mem _ _ _ _ hn).1])
    have hpr : v'.vm.prot (x / PAGE) = s.σ.vm.prot (x / PAGE) := ok.quiet (c := .prot (x / PAGE)) fun u y hy => (hun u y hy).2
    refine ⟨_, _, q.store x b hp hu h1 h2, ok.move (fun _ => True) meanwhile_iff (fun _ _ _ _ => rfl) (fun u y _ hy c hc => ?_) fun c hn => ?_⟩
    · have hne : c ≠ .mem x := fun e => (hun u y hy).1 (e ▸ hc)
      rw [hσ']
      exact ⟨hst _ c hne, hst _ c hne⟩
    · have hq := ok.quiet fun u y hy => hn u y trivial hy
      rw [hσ']
      by_cases e : c = .mem x
      · subst e
        have hq : v'.vm.mem x = s.σ.vm.mem x := hq
        show (v'.vm.appStore x b).mem x = (s.σ.vm.appStore x b).mem x
        unfold Vm.appStore
        rw [hpr]
        split
        · simp
        · exact hq
      · exact ((hst _ c e).trans hq).trans (hst _ c e).symm
  | errno r t e hi ih =>
    obtain ⟨v, start, q, ok⟩ := ih
    exact ⟨_, _, q.errno t e hi, ok.rerun fun _ _ _ => rfl⟩
  | @fork h s r t hi hs ih =>
    obtain ⟨v, start, q, ok⟩ := ih
    refine ⟨_, _, q.fork t hi, ok.rerun fun u x hx => ?_⟩
    rw [hs u] at hx; cases hx
  | @other h s r pg pr data hp σ' hσ' ih =>
    obtain ⟨v, start, q, ok⟩ := ih
    obtain ⟨w, _, i⟩ := q.inv hg
    have hσ : w.σ = v := i.σ
    have hns : ∀ u y, s.sec u = some y → ¬ y.sect.uses ro v (.prot pg) := fun u y hy hu => by
      have ho := Sect.uses_prot hro i.inv (ok.exist u y hy) hu
      rcases hp with hp | hp
      · rw [i.others pg hp] at ho; cases ho
      · exact absurd hp (ok.mapped u y pg hy hu)
    have hpv : cforeign h pg = true ∨ v.vm.prot pg = .unmapped := hp.imp id fun hp => by
      have : v.vm.prot pg = s.σ.vm.prot pg := ok.quiet (c := .prot pg) fun u y hy hu => hns u y hy hu.1
      rw [this]; exact hp
    have hown : w.G.own pg ≠ .slab := by
      rcases hpv with hp | hp
      · rw [i.others pg hp]; simp
      · exact fun e => i.inv.mapped pg (by rw [e]; simp) (by rw [hσ]; exact hp)
    have hst : ∀ (σ : St) c, c ≠ .prot pg → (∀ x, x / PAGE = pg → c ≠ .mem x) → ({ σ with vm := σ.vm.foreign pg pr data } : St).agree σ c := by
      intro σ c hc hm
      cases c with
      | sc a c => rfl
      | regs => exact ⟨rfl, rfl, rfl, rfl, rfl⟩
      | prot q => exact if_neg fun e => hc (by rw [e])
      | mem y => exact if_neg fun e => hm y e rfl
    refine ⟨_, _, q.other pg pr data hpv, ok.move (fun _ => True) meanwhile_iff (fun _ _ _ _ => rfl) (fun u y _ hy c hc => ?_) fun c hn => ?_⟩
    · have h1 : c ≠ .prot pg := fun e => hown (Sect.uses_prot hro i.inv (ok.exist u y hy) (e ▸ hc))
      have h2 : ∀ x, x / PAGE = pg → c ≠ .mem x := fun x ex e => hown (ex ▸ Sect.uses_mem hro i.inv (ok.exist u y hy) (e ▸ hc))
      rw [hσ']
      exact ⟨hst _ c h1 h2, hst _ c h1 h2⟩
    · have hq := ok.quiet fun u y hy => hn u y trivial hy
      rw [hσ']
      by_cases h1 : c = .prot pg
      · subst h1
        show (if pg = pg then _ else _ : Prot) = (if pg = pg then _ else _ : Prot)
        rw [if_pos rfl, if_pos rfl]
      · by_cases h2 : ∀ x, x / PAGE = pg → c ≠ .mem x
        · exact ((hst _ c h1 h2).trans hq).trans (hst _ c h1 h2).symm
        · push Not at h2
          obtain ⟨x, ex, rfl⟩ := h2
          show (if x / PAGE = pg then _ else _ : BitVec 8) = (if x / PAGE = pg then _ else _ : BitVec 8)
          rw [if_pos ex, if_pos ex]

end HM
