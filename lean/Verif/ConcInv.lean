import Verif.ConcCall
import Verif.Deaf
import Verif.Outside
/-
Every reachable state of the concurrent machine satisfies the global invariant.
-/
namespace HM

variable {ro : Ro} {g : Cfg} {ar : Nat → Nat} {calm : Bool} {n0 : Nat → Nat} {h : List CEv} {s : CSys} {w : World}

theorem Trans.weaken {hs hs' : Holder → Prop} {w w' : World} (s : Trans ro hs w w') (hh : ∀ h, hs' h → hs h) : Trans ro hs' w w' :=
  ⟨s.inv, fun h h0 h1 => s.same h h0 (hh h h1), s.content, s.stat, s.delay⟩

/-- What thread `t` is going to do. -/
def Promise (ro : Ro) (t : Nat) (hd : Option (Nat × Info)) (σ0 : St) (n0 : Nat) (c : Call) (P : Prog Ret) (tl : Tl) (w : World) : Prop :=
  (c.Plain → P.Deaf) ∧ ∀ w', Rely .conc ro t w w' → WP .conc ro t (CF ro) P (fun r tl' w' => tl'.unsealed = false ∧ Done ro t c hd σ0 n0 r w') tl w'

/-- A world that goes with a reachable state of the concurrent machine. `n0 t` is the number of regions that had been put in
quarantine when the last call of thread `t` began. -/
structure CInv (ro : Ro) (calm : Bool) (n0 : Nat → Nat) (h : List CEv) (s : CSys) (w : World) : Prop where
  σ : w.σ = s.σ
  inv : GInv ro w
  stat : StatOk ro w
  content : Content ro w
  env : w.G.env = (calm, none)
  app : ∀ p, w.G.blk p = .app ↔ ((hold h).live p).isSome = true
  sized : ∀ p i, (hold h).live p = some i → Sized ro w p i
  tl : ∀ t, s.run t = none → (s.tl t).unsealed = false
  others : ∀ pg, cforeign h pg = true → w.G.own pg = .held 0
  run : ∀ t c P, s.run t = some (c, P) → Promise ro (t + 1) ((hold h).hand t) (s.start t) (n0 t) c P (s.tl t) w

theorem Promise.rely {t : Nat} {hd : Option (Nat × Info)} {σ0 : St} {n0 : Nat} {c : Call} {P : Prog Ret} {tl : Tl} {w' : World} (p : Promise ro t hd σ0 n0 c P tl w)
    (r : Trans ro (· = .thr t) w w') : Promise ro t hd σ0 n0 c P tl w' := ⟨p.1, fun _ r' => p.2 _ (Trans.trans r r')⟩

theorem CInv.live_app (i : CInv ro calm n0 h s w) {p : Nat} {j : Info} (e : (hold h).live p = some j) : w.G.blk p = .app := (i.app p).mpr (by rw [e]; rfl)

theorem CInv.eff (i : CInv ro calm n0 h s w) {p : Nat} (e : ((hold h).live p).isSome = true) : w.G.eff p = none := app_eff i.inv ((i.app p).mpr e)

theorem CInv.usable_iff (hro : RoOk ro) (i : CInv ro calm n0 h s w) {p u : Nat} (e : ((hold h).live p).isSome = true) : Usable ro s.σ p u ↔ UsableIs ro w p u := by
  rw [← i.σ]
  exact HM.usable_iff hro i.inv i.content (by rw [(i.app p).mpr e]; simp) (i.eff e)

theorem CInv.keep (i : CInv ro calm n0 h s w) {w' : World} {hs : Holder → Prop} (t : Trans ro hs w w') (ha : hs .app) {p : Nat} (e : ((hold h).live p).isSome = true) : KeepB ro w w' p :=
  (t.same .app (by simp) ha).toSameB.keep ((i.app p).mpr e)

theorem CReach.roOk (hg : Good g ar) (r : CReach g ro ar calm h s) : RoOk ro ∧ ro.g = g := by
  induction r with
  | init hi _ => exact ⟨hi.roOk hg.valid hg.freeQ, hi.post.cfg⟩
  | _ => assumption

theorem SEnv.seq {ch : Choice} (h : SEnv calm ch) : Fair .seq (calm, none) ch := Env.fair (env := (calm, none)) h.1 fun _ e => nomatch e

theorem SEnv.fair {ch : Choice} (h : SEnv calm ch) : Fair .conc (calm, none) ch := ⟨h.1.1, fun _ => h.2, h.1.2, fun _ e => nomatch e⟩

/-- What the invariant says about the next action of a call. -/
theorem CInv.wp (i : CInv ro calm n0 h s w) {t : Nat} {c : Call} {P : Prog Ret} (hc : s.run t = some (c, P)) :
    WP .conc ro (t + 1) (CF ro) P (fun r tl' w' => tl'.unsealed = false ∧ Done ro (t + 1) c ((hold h).hand t) (s.start t) (n0 t) r w') (s.tl t) w :=
  (i.run t c P hc).2 w (Rely.refl (m := .conc) i.inv)

/-- The next action of a call has the same effect for choices of the environment that do not let the release of the tail of
an over-aligned mapping fail with ENOMEM. -/
theorem CInv.settle (i : CInv ro calm n0 h s w) {t : Nat} {c : Call} {β : Type} {l : Option Sect} {f : Choice → St → Tl → Res (St × Tl × β)} {k : β → Prog Ret}
    (hc : s.run t = some (c, .act (l := l) f k)) {ch : Choice} (he : CEnv calm c ch) :
    ∃ ch', SEnv calm ch' ∧ (∀ σ tl, f ch' σ tl = f ch σ tl) ∧ (SysOther ch' → SysOther ch) := by
  obtain ⟨ch', h1, h2, h3, h4, _, h5⟩ := he.settle fun hp => ((i.run t c _ hc).1 hp).1.1
  exact ⟨ch', h1, h2, fun h => by unfold SysOther at h ⊢; rw [h3, h4] at h; exact h.imp id (.imp id h5)⟩

/-- Thread `t` does something that leaves the holders other than itself alone. -/
theorem CInv.act (i : CInv ro calm n0 h s w) {t : Nat} {w' : World} (hg : Guar ro (t + 1) w w') {tl' : Tl} {P' : Option (Call × Prog Ret)}
    (hP : ∀ c P, P' = some (c, P) → Promise ro (t + 1) ((hold h).hand t) (s.start t) (n0 t) c P tl' w') (htl : P' = none → tl'.unsealed = false) :
    CInv ro calm n0 h ⟨w'.σ, upd s.tl t tl', upd s.run t P', s.start⟩ w' where
  σ := rfl
  inv := hg.inv
  stat := hg.stat i.stat
  content := hg.content i.content
  env := hg.delay.env.trans i.env
  app := fun p => ((hg.same .app (by simp) (by simp)).blk p).trans (i.app p)
  sized := fun p j e => (i.sized p j e).keep (i.keep hg (by simp) (by rw [e]; rfl))
  others := fun pg hp => ((hg.same (.thr 0) (by simp) (by simp)).pages 0 rfl pg).mpr (i.others pg hp)
  tl := fun u hu => by
    simp only [upd] at hu ⊢
    by_cases e : u = t
    · rw [if_pos e] at hu ⊢; exact htl hu
    · rw [if_neg e] at hu ⊢; exact i.tl u hu
  run := fun u c P hu => by
    simp only [upd] at hu ⊢
    by_cases e : u = t
    · subst e; rw [if_pos rfl] at hu ⊢; exact hP c P hu
    · rw [if_neg e] at hu ⊢
      exact (i.run u c P hu).rely (hg.weaken fun h hh => by rw [hh]; simp [e])

/-- The invariant in terms of what changes when a block changes hands. -/
theorem CInv.give (i : CInv ro calm n0 h s w) {t b : Nat} {o : Holder} {e : CEv} {s' : CSys} {n0' : Nat → Nat} (hn : ∀ u, u ≠ t → n0' u = n0 u) (hσ : s'.σ = s.σ) (hb : w.G.blk b = .app ∨ w.G.blk b = .thr (t + 1))
    (ho : o = .app ∨ o = .thr (t + 1)) (he : w.G.eff b = none) (hf : cforeign (e :: h) = cforeign h)
    (hl : ∀ x, x ≠ b → (hold (e :: h)).live x = (hold h).live x)
    (hl' : match (hold (e :: h)).live b with | none => o ≠ .app | some j => o = .app ∧ Sized ro w b j)
    (hh : ∀ u, u ≠ t → (hold (e :: h)).hand u = (hold h).hand u ∧ s'.start u = s.start u ∧ s'.run u = s.run u ∧ s'.tl u = s.tl u)
    (htl : s'.run t = none → (s'.tl t).unsealed = false)
    (hP : ∀ c P, s'.run t = some (c, P) → Promise ro (t + 1) ((hold (e :: h)).hand t) (s'.start t) (n0' t) c P (s'.tl t) (w.give b o)) :
    CInv ro calm n0' (e :: h) s' (w.give b o) := by
  have hbn : w.G.blk b ≠ .nobody := by rcases hb with e | e <;> rw [e] <;> simp
  have hon : o ≠ .nobody := by rcases ho with e | e <;> rw [e] <;> simp
  have tr : ∀ u, u ≠ t → Trans ro (· = .thr (u + 1)) w (w.give b o) := fun u hu => give_trans i.inv hbn hon he fun h hh => by
    rw [hh]
    refine ⟨?_, ?_⟩
    · rcases ho with e | e <;> rw [e] <;> simp [hu]
    · rcases hb with e | e <;> rw [e] <;> simp [hu]
  refine ⟨hσ ▸ i.σ, give_inv i.inv hbn hon he, ⟨i.stat.small, i.stat.large⟩, i.content, i.env, fun p => ?_, fun p j hp => ?_, fun u hu => ?_,
    fun pg hp => i.others pg (hf ▸ hp), fun u c P hu => ?_⟩
  · by_cases hp : p = b
    · subst hp
      rw [give_self]
      revert hl'
      cases (hold (e :: h)).live p with
      | none => intro hl'; exact iff_of_false hl' (by simp)
      | some j => intro hl'; exact iff_of_true hl'.1 rfl
    · rw [give_other _ _ hp, hl p hp]; exact i.app p
  · by_cases hpb : p = b
    · subst hpb
      rw [hp] at hl'
      exact give_sized hl'.2
    · rw [hl p hpb] at hp; exact give_sized (i.sized p j hp)
  · by_cases e : u = t
    · subst e; exact htl hu
    · obtain ⟨_, _, h3, h4⟩ := hh u e
      rw [h4]; exact i.tl u (h3 ▸ hu)
  · by_cases e : u = t
    · subst e; exact hP c P hu
    · obtain ⟨h1, h2, h3, h4⟩ := hh u e
      rw [h1, h2, h4, hn u e]
      exact (i.run u c P (h3 ▸ hu)).rely (tr u e)

/-- The invariant when no block changes hands. -/
theorem CInv.stay (i : CInv ro calm n0 h s w) {t : Nat} {e : CEv} {s' : CSys} {n0' : Nat → Nat} (hn : ∀ u, u ≠ t → n0' u = n0 u) (hσ : s'.σ = s.σ) (hf : cforeign (e :: h) = cforeign h)
    (hl : ∀ x, (hold (e :: h)).live x = (hold h).live x)
    (hh : ∀ u, u ≠ t → (hold (e :: h)).hand u = (hold h).hand u ∧ s'.start u = s.start u ∧ s'.run u = s.run u ∧ s'.tl u = s.tl u)
    (htl : s'.run t = none → (s'.tl t).unsealed = false)
    (hP : ∀ c P, s'.run t = some (c, P) → Promise ro (t + 1) ((hold (e :: h)).hand t) (s'.start t) (n0' t) c P (s'.tl t) w) :
    CInv ro calm n0' (e :: h) s' w := by
  refine ⟨hσ ▸ i.σ, i.inv, i.stat, i.content, i.env, fun p => by rw [hl]; exact i.app p, fun p j hp => i.sized p j (hl p ▸ hp), fun u hu => ?_,
    fun pg hp => i.others pg (hf ▸ hp), fun u c P hu => ?_⟩
  · by_cases e : u = t
    · subst e; exact htl hu
    · obtain ⟨_, _, h3, h4⟩ := hh u e
      rw [h4]; exact i.tl u (h3 ▸ hu)
  · by_cases e : u = t
    · subst e; exact hP c P hu
    · obtain ⟨h1, h2, h3, h4⟩ := hh u e
      rw [h1, h2, h4, hn u e]
      exact i.run u c P (h3 ▸ hu)

/-- A call begins. -/
theorem CInv.invoke (hro : RoOk ro) (har : ∀ t, ar t < ro.g.nArena) (i : CInv ro calm n0 h s w) {t : Nat} {c : Call} {b : Nat} (hi : s.run t = none) (hok : c.Ok)
    (hl : Lends ro (hold h) s.σ b c) :
    ∃ w', CInv ro calm (upd n0 t w.G.pushes) (.inv t c b :: h) ⟨s.σ, s.tl, upd s.run t (some (c, c.prog ro (ar t))), upd s.start t s.σ⟩ w' ∧
      (w' = w ∧ (hold h).live b = none ∨ w' = w.give b (.thr (t + 1)) ∧ ((hold h).live b).isSome = true) := by
  have hlive0 : (hold h).live 0 = none := by
    cases e : (hold h).live 0 with
    | none => rfl
    | some j => have := i.live_app e; rw [blk_zero hro i.inv] at this; cases this
  have hothers : ∀ u, u ≠ t → (hold (.inv t c b :: h)).hand u = (hold h).hand u ∧ upd s.start t s.σ u = s.start u ∧
      upd s.run t (some (c, c.prog ro (ar t))) u = s.run u ∧ s.tl u = s.tl u := fun u hu => ⟨if_neg hu, if_neg hu, if_neg hu, rfl⟩
  have hrun : upd s.run t (some (c, c.prog ro (ar t))) t = some (c, c.prog ro (ar t)) := if_pos rfl
  have hstart : upd s.start t s.σ t = s.σ := if_pos rfl
  have hhand : (hold (.inv t c b :: h)).hand t = ((hold h).live b).map (b, ·) := if_pos rfl
  have harg : ArgOk ro (((hold h).live b).map (b, ·)) s.σ c := by
    have key : ∀ p, b = p → (p = 0 ∨ ((hold h).live p).isSome = true) → (p = 0 ∧ ((hold h).live b).map (b, ·) = none) ∨ ∃ i, ((hold h).live b).map (b, ·) = some (p, i) := by
      rintro p rfl (rfl | hp)
      · exact Or.inl ⟨rfl, by rw [hlive0]; rfl⟩
      · obtain ⟨j, e⟩ := Option.isSome_iff_exists.mp hp
        exact Or.inr ⟨j, by rw [e]; rfl⟩
    have none : b = 0 → ((hold h).live b).map (b, ·) = none := fun e => by rw [e, hlive0]; rfl
    cases c with
    | free p => exact key p hl.1 hl.2
    | usableSize p => exact key p hl.1 hl.2
    | freeSized p n =>
      obtain ⟨rfl, rfl | hp⟩ := hl
      · exact Or.inl ⟨rfl, none rfl⟩
      · exact Or.inr (by rw [hp]; rfl)
    | realloc p n =>
      obtain ⟨rfl, rfl | ⟨j, hp, ho⟩⟩ := hl
      · exact Or.inl ⟨rfl, none rfl⟩
      · exact Or.inr ⟨j, by rw [hp]; rfl, ho⟩
    | objectSize x =>
      rcases hl with ⟨h1, h2⟩ | ⟨h1, u, h2, h3, h4⟩
      · exact Or.inl ⟨h1, none h2⟩
      · obtain ⟨j, e⟩ := Option.isSome_iff_exists.mp h1
        exact Or.inr ⟨b, j, u, by rw [e]; rfl, h2, h3, h4⟩
    | _ => exact none hl
  cases hb : (hold h).live b with
  | none =>
    rw [hb] at harg
    refine ⟨w, i.stay (t := t) (fun u hu => if_neg hu) rfl rfl (fun x => ?_) hothers (fun e => absurd (hrun.symm.trans e) (by simp)) (fun c' P e => ?_), Or.inl ⟨rfl, rfl⟩⟩
    · show (if x = b then none else _) = _
      by_cases e : x = b
      · rw [if_pos e, e, hb]
      · rw [if_neg e]
    · have e := hrun.symm.trans e
      cases e
      show Promise ro (t + 1) _ (upd s.start t s.σ t) (upd n0 t w.G.pushes t) _ _ _ _
      rw [hstart, hhand, hb, show upd n0 t w.G.pushes t = w.G.pushes from if_pos rfl]
      refine ⟨fun hp => .call _ hp, fun w' r => ?_⟩
      have hr : CReady ro (t + 1) none s.σ w := ⟨i.inv, i.content, fun p j e => by cases e⟩
      exact conc_wp hro (hr.rely hro r) (i.tl t hi) (har t) hok harg (r.delay hr.inv).pushes
  | some j =>
    rw [hb] at harg
    have happ := i.live_app hb
    have heff := app_eff i.inv happ
    refine ⟨w.give b (.thr (t + 1)), i.give (t := t) (fun u hu => if_neg hu) rfl (Or.inl happ) (Or.inr rfl) heff rfl (fun x hx => if_neg hx) ?_ hothers (fun e => absurd (hrun.symm.trans e) (by simp)) (fun c' P e => ?_), Or.inr ⟨rfl, rfl⟩⟩
    · rw [show (hold (.inv t c b :: h)).live b = none from if_pos rfl]; simp
    · have e := hrun.symm.trans e
      cases e
      show Promise ro (t + 1) _ (upd s.start t s.σ t) (upd n0 t w.G.pushes t) _ _ _ _
      rw [hstart, hhand, hb, show upd n0 t w.G.pushes t = w.G.pushes from if_pos rfl]
      refine ⟨fun hp => .call _ hp, fun w' r => ?_⟩
      have hr : CReady ro (t + 1) (some (b, j)) s.σ (w.give b (.thr (t + 1))) := by
        refine ⟨give_inv i.inv (by rw [happ]; simp) (by simp) heff, i.content, fun p j' e => ?_⟩
        cases e
        refine ⟨⟨give_self _ _ _, heff⟩, give_sized (i.sized b j hb), fun u => ⟨i.usable_iff hro (by rw [hb]; rfl), fun _ x _ => ?_⟩⟩
        show w.σ.vm.mem x = _
        rw [i.σ]
      exact conc_wp hro (hr.rely hro r) (i.tl t hi) (har t) hok harg (r.delay hr.inv).pushes

/-- A call returns. -/
theorem CInv.done (i : CInv ro calm n0 h s w) {t : Nat} {c : Call} {x : Ret} (hc : s.run t = some (c, .ret x)) :
    (s.tl t).unsealed = false ∧ Done ro (t + 1) c ((hold h).hand t) (s.start t) (n0 t) x w := i.wp hc

theorem CInv.ret (i : CInv ro calm n0 h s w) {t : Nat} {c : Call} {x : Ret} (hc : s.run t = some (c, .ret x)) :
    ∃ w', CInv ro calm n0 (.ret t c x :: h) ⟨s.σ, s.tl, upd s.run t none, s.start⟩ w' ∧
      (w' = w ∨ ∃ q, w.G.blk q = .thr (t + 1) ∧ w.G.eff q = none ∧ w' = w.give q .app) := by
  obtain ⟨htl, d⟩ := i.done hc
  have hothers : ∀ u, u ≠ t → (hold (.ret t c x :: h)).hand u = (hold h).hand u ∧ s.start u = s.start u ∧ upd s.run t none u = s.run u ∧ s.tl u = s.tl u :=
    fun u hu => ⟨if_neg hu, rfl, if_neg hu, rfl⟩
  have hrun : upd s.run t none t = none := if_pos rfl
  cases hg : c.gives ((hold h).hand t) x with
  | none =>
    refine ⟨w, i.stay (t := t) (fun _ _ => rfl) rfl rfl (fun y => ?_) hothers (fun _ => htl) (fun c' P e => absurd (hrun.symm.trans e) (by simp)), Or.inl rfl⟩
    show (match c.gives ((hold h).hand t) x with | some (q, i) => _ | none => _) = _
    rw [hg]
  | some y =>
    obtain ⟨q, j⟩ := y
    obtain ⟨m, sz⟩ := d.gives q j hg
    have hl : ∀ y, (hold (.ret t c x :: h)).live y = if y = q then some j else (hold h).live y := by
      intro y
      show (match c.gives ((hold h).hand t) x with | some (q, i) => _ | none => _) = _
      rw [hg]
    refine ⟨w.give q .app, i.give (t := t) (fun _ _ => rfl) rfl (Or.inr m.blk) (Or.inl rfl) m.eff rfl (fun y hy => by rw [hl, if_neg hy]) ?_ hothers (fun _ => htl) (fun c' P e => absurd (hrun.symm.trans e) (by simp)), Or.inr ⟨q, m.blk, m.eff, rfl⟩⟩
    rw [hl, if_pos rfl]
    exact ⟨rfl, sz⟩

/-- Someone else changes a page. -/
theorem CInv.other (hro : RoOk ro) (i : CInv ro calm n0 h s w) {pg : Nat} (hp : cforeign h pg = true ∨ s.σ.vm.prot pg = .unmapped) (pr : Prot) (data : Nat → BitVec 8) :
    CInv ro calm n0 (.foreign pg (pr != .unmapped) :: h) ⟨{ s.σ with vm := s.σ.vm.foreign pg pr data }, s.tl, s.run, s.start⟩
      (w.outside (fun q => if q = pg then (if pr = .unmapped then .none else .held 0) else w.G.own q) (w.σ.vm.foreign pg pr data)) ∧
    Trans ro (· ≠ .thr 0) w (w.outside (fun q => if q = pg then (if pr = .unmapped then .none else .held 0) else w.G.own q) (w.σ.vm.foreign pg pr data)) := by
  have hown : w.G.own pg = .none ∨ w.G.own pg = .held 0 := by
    rcases hp with hp | hp
    · exact Or.inr (i.others pg hp)
    · exact Or.inl (by_contra fun hc => i.inv.mapped pg hc (by rw [i.σ]; exact hp))
  have hnot : ¬ Ours (w.G.own pg) := by
    rcases hown with e | e <;> rw [e]
    · exact fun hc => hc.1 rfl
    · exact fun hc => hc.2 0 rfl
  have hne : ∀ q, Ours (w.G.own q) → q ≠ pg := fun q ho e => hnot (e ▸ ho)
  have o : Outside w (fun q => if q = pg then (if pr = .unmapped then .none else .held 0) else w.G.own q) (w.σ.vm.foreign pg pr data) := by
    refine ⟨fun q ho => if_neg (hne q ho), fun q ho => if_neg (hne q ho), fun x ho => if_neg (hne _ ho), fun q ho => ?_, fun q ho h0 => ?_⟩
    · split
      · split
        · exact fun hc => hc.1 rfl
        · exact fun hc => hc.2 0 rfl
      · exact ho
    · show (if q = pg then _ else _) ≠ _
      by_cases e : q = pg
      · rw [if_pos e]
        simp only [if_pos e] at h0
        intro hc
        exact h0 (if_pos hc)
      · simp only [if_neg e] at h0
        rw [if_neg e]
        exact i.inv.mapped q h0
  have tr := o.trans (f := 0) hro i.inv fun t ht q => by
    have hh : w.G.own pg ≠ .held t := by rcases hown with e | e <;> rw [e] <;> simp [Ne.symm ht]
    refine ⟨?_, fun hq => ?_⟩
    · by_cases e : q = pg
      · rw [if_pos e, e]
        refine iff_of_false ?_ hh
        split
        · simp
        · simp [Ne.symm ht]
      · rw [if_neg e]
    · have hq : q ≠ pg := fun e => hh (e ▸ hq)
      exact ⟨if_neg hq, fun x hx => if_neg (hx ▸ hq)⟩
  refine ⟨⟨by rw [← i.σ]; rfl, tr.inv, tr.stat i.stat, tr.content i.content, i.env, i.app, fun p j e => (i.sized p j e).keep (o.keep hro i.inv p), i.tl, fun q hq => ?_, fun t c P ht => ?_⟩, tr⟩
  · have hq : (if q = pg then (pr != .unmapped) else cforeign h q) = true := hq
    show (if q = pg then _ else _) = _
    by_cases e : q = pg
    · rw [if_pos e] at hq ⊢
      rw [if_neg (by simpa using hq)]
    · rw [if_neg e] at hq ⊢
      exact i.others q hq
  · exact (i.run t c P ht).rely (tr.weaken fun h hh => by rw [hh]; simp)

/-- Blocks given to calls that are no more belong to no thread. -/
def Holder.lost : Holder → Holder
  | .thr _ => .thr 0
  | o => o

/-- There are no calls any more. -/
def World.lost (w : World) : World := ⟨w.σ, { w.G with blk := fun x => (w.G.blk x).lost }⟩

theorem lost_nobody (w : World) (x : Nat) : w.lost.G.blk x = .nobody ↔ w.G.blk x = .nobody := by
  show (w.G.blk x).lost = _ ↔ _
  cases w.G.blk x <;> simp [Holder.lost]

theorem lost_app (w : World) (x : Nat) : w.lost.G.blk x = .app ↔ w.G.blk x = .app := by
  show (w.G.blk x).lost = _ ↔ _
  cases w.G.blk x <;> simp [Holder.lost]

theorem lost_thr (w : World) {x t : Nat} (e : w.G.blk x = .thr t) : w.lost.G.blk x = .thr 0 := by
  show (w.G.blk x).lost = _
  rw [e]; rfl

theorem lost_inv (hi : GInv ro w) : GInv ro w.lost := by
  refine ⟨hi.cls, hi.clsVm, hi.gaps, hi.rt, hi.reg, hi.slabOwn, hi.regOwn, hi.regRw, hi.regLo, hi.regHi, hi.qrOwn, hi.qqOwn, hi.qrOk, hi.qqOk, hi.qi, hi.mapped,
    fun p => ?_, fun p n e => ?_, hi.cache, hi.qprot⟩
  · exact (not_congr (lost_nobody w p)).trans (hi.blk p)
  · obtain ⟨⟨t, h1⟩, h2⟩ := hi.eff p n e
    exact ⟨⟨0, lost_thr w h1⟩, h2⟩

/-- Thread `t` forks. -/
theorem CInv.fork (i : CInv ro calm n0 h s w) {t : Nat} (hi : s.run t = none) :
    CInv ro calm n0 (.fork t :: h) ⟨s.σ, fun u => if u = t then s.tl t else ⟨0, false⟩, fun _ => none, s.start⟩ w.lost := by
  refine ⟨i.σ, lost_inv i.inv, ⟨i.stat.small, i.stat.large⟩, i.content, i.env, fun p => (lost_app w p).trans (i.app p), i.sized, fun u _ => ?_, i.others, fun _ _ _ e => by cases e⟩
  show (if u = t then _ else _ : Tl).unsealed = false
  by_cases e : u = t
  · rw [if_pos e]; exact i.tl t hi
  · rw [if_neg e]

/-- The application stores a byte. -/
theorem CInv.store (hro : RoOk ro) (i : CInv ro calm n0 h s w) {x p u : Nat} (v : BitVec 8) (hp : ((hold h).live p).isSome) (hu : Usable ro s.σ p u)
    (h1 : p ≤ x) (h2 : x < p + u) :
    CInv ro calm n0 (.store x v :: h) ⟨{ s.σ with vm := s.σ.vm.appStore x v }, s.tl, s.run, s.start⟩ (w.setMem (w.σ.vm.appStore x v)) ∧
      Trans ro (· ≠ .app) w (w.setMem (w.σ.vm.appStore x v)) := by
  have happ := (i.app p).mpr hp
  have hub : UserByte ro w p x := UsableIs.user' (app_eff i.inv happ) ((i.usable_iff hro hp).mp hu) (by unfold inRange; omega)
  have ms : MemStep ro p w (w.σ.vm.appStore x v) := ⟨appStore_prot _ _ _, fun y hy => by rw [(appStore_mem _ _ _ _ hy).1]; exact hub⟩
  have tr := ms.trans hro i.inv
  rw [happ] at tr
  refine ⟨⟨by rw [← i.σ]; rfl, tr.inv, tr.stat i.stat, tr.content i.content, i.env, i.app, fun q j e => i.sized q j e, i.tl, i.others, fun u c P hu => ?_⟩, tr⟩
  exact (i.run u c P hu).rely (tr.weaken fun h hh => by rw [hh]; simp)

/-- How the world changes in a step. -/
inductive Change (ro : Ro) (ar : Nat → Nat) (h : List CEv) (s : CSys) (n0 : Nat → Nat) (w : World) (h' : List CEv) (s' : CSys) (n0' : Nat → Nat) (w' : World) : Prop
  | act {t : Nat} {c : Call} {β : Type} {l : Option Sect} {f : Choice → St → Tl → Res (St × Tl × β)} {k : β → Prog Ret} {b : β}
      (hc : s.run t = some (c, .act (l := l) f k)) (hd : Does ro (t + 1) l w w') (eh : h' = h) (en : n0' = n0)
      (er : s'.run = upd s.run t (some (c, k b))) (es : s'.start = s.start)
  | inv {t : Nat} {c : Call} {b : Nat} (hi : s.run t = none) (hl : Lends ro (hold h) s.σ b c) (eh : h' = .inv t c b :: h) (en : n0' = upd n0 t w.G.pushes)
      (er : s'.run = upd s.run t (some (c, c.prog ro (ar t)))) (es : s'.start = upd s.start t s.σ)
      (ew : w' = w ∧ (hold h).live b = none ∨ w' = w.give b (.thr (t + 1)) ∧ ((hold h).live b).isSome = true)
  | ret {t : Nat} {c : Call} {x : Ret} (hc : s.run t = some (c, .ret x)) (eh : h' = .ret t c x :: h) (en : n0' = n0)
      (er : s'.run = upd s.run t none) (es : s'.start = s.start)
      (ew : w' = w ∨ ∃ q, w.G.blk q = .thr (t + 1) ∧ w.G.eff q = none ∧ w' = w.give q .app)
  | fork {t : Nat} (hi : s.run t = none) (eh : h' = .fork t :: h) (en : n0' = n0) (er : s'.run = fun _ => none) (es : s'.start = s.start) (ew : w' = w.lost)
  | out {e : CEv} (eh : h' = e :: h) (he : (∃ x v, e = .store x v) ∨ (∃ t x, e = .errno t x) ∨ ∃ pg m, e = .foreign pg m) (en : n0' = n0)
      (er : s'.run = s.run) (es : s'.start = s.start) (hd : Delay ro w w') (eb : w'.G.blk = w.G.blk) (ef : w'.G.frees = w.G.frees)
      (ep : w'.G.pushes = w.G.pushes)

/-- The invariant is kept by every step. -/
theorem CInv.step (hg : Good g ar) (hro : RoOk ro) (eg : ro.g = g) {h' : List CEv} {s' : CSys} (i : CInv ro calm n0 h s w) (st : CStep ro ar calm h s h' s') :
    ∃ n0' w', CInv ro calm n0' h' s' w' ∧ Change ro ar h s n0 w h' s' n0' w' := by
  have har : ∀ t, ar t < ro.g.nArena := fun t => by rw [eg]; exact hg.arena t
  cases st with
  | invoke t c b hi hok hl =>
    obtain ⟨w', h1, h2⟩ := i.invoke hro har hi hok hl
    exact ⟨_, w', h1, .inv hi hl rfl rfl rfl rfl h2⟩
  | step t hc he hf =>
    obtain ⟨ch', hs, hch, _⟩ := i.settle hc he
    have h1 := (i.wp hc).2 _ (i.env ▸ hs.fair)
    rw [hch, i.σ, hf] at h1
    obtain ⟨G', h2, h3⟩ := h1
    exact ⟨n0, _, i.act h2.toTrans (fun c' P e => by cases e; exact ⟨fun hp => ((i.run t _ _ hc).1 hp).2 _, fun w' r => h3 w' r⟩) (fun e => by cases e), .act hc h2 rfl rfl rfl rfl⟩
  | ret t hc =>
    obtain ⟨w', h1, h2⟩ := i.ret hc
    exact ⟨n0, w', h1, .ret hc rfl rfl rfl rfl h2⟩
  | store x v hp hu h1 h2 =>
    obtain ⟨k1, k2⟩ := i.store hro v hp hu h1 h2
    exact ⟨n0, _, k1, .out rfl (.inl ⟨_, _, rfl⟩) rfl rfl rfl k2.delay rfl rfl rfl⟩
  | errno t e hi =>
    refine ⟨n0, w, i.stay (t := t) (fun _ _ => rfl) rfl rfl (fun _ => rfl) (fun u hu => ⟨rfl, rfl, rfl, if_neg hu⟩) (fun _ => ?_) (fun c' P e => ?_),
      .out rfl (.inr (.inl ⟨_, _, rfl⟩)) rfl rfl rfl (Rely.delay (m := .conc) (t := 0) i.inv (Rely.refl i.inv)) rfl rfl rfl⟩
    · show (if t = t then _ else _ : Tl).unsealed = false
      rw [if_pos rfl]; exact i.tl t hi
    · exact absurd (hi.symm.trans e) (by simp)
  | fork t hi => exact ⟨n0, _, i.fork hi, .fork hi rfl rfl rfl rfl rfl⟩
  | other pg pr data hp =>
    obtain ⟨k1, k2⟩ := i.other hro hp pr data
    exact ⟨n0, _, k1, .out rfl (.inr (.inr ⟨_, _, rfl⟩)) rfl rfl rfl k2.delay rfl rfl rfl⟩

/-- The invariant holds initially. -/
theorem CInv.init (hg : Good g ar) {σ : St} {tl : Nat → Tl} (hi : Initialised g ro σ) (htl : ∀ t, (tl t).unsealed = false) :
    ∃ w, CInv ro calm (fun _ => 0) [] ⟨σ, tl, fun _ => none, fun _ => σ⟩ w := by
  obtain ⟨h1, h2, h3⟩ := hi.inv hg.valid hg.freeQ calm
  exact ⟨_, rfl, h1, h2, h3, rfl, fun p => iff_of_false (by simp [Gh.init]) (by simp [hold]), fun _ _ e => (by cases e), fun t _ => htl t, fun _ e => (by cases e), fun _ _ _ e => (by cases e)⟩

/-- Every reachable state of the concurrent machine satisfies the invariant. -/
theorem CReach.inv (hg : Good g ar) (r : CReach g ro ar calm h s) : ∃ w n0, CInv ro calm n0 h s w := by
  obtain ⟨hro, e⟩ := r.roOk hg
  refine r.induction (M := fun h s => ∃ w n0, CInv ro calm n0 h s w) (fun hi htl => ?_) (fun _ st ih => ?_)
  · obtain ⟨w, i⟩ := CInv.init (calm := calm) hg hi htl
    exact ⟨w, _, i⟩
  · obtain ⟨w, n0, i⟩ := ih
    obtain ⟨n0', w', i', _⟩ := i.step hg hro e st
    exact ⟨w', n0', i'⟩

end HM
