import Verif.ConcLeak
import Verif.ConcCount
/-
Accounting for mapped pages and allocated blocks while calls of several threads are interleaved: the invariant.
-/
namespace HM

variable {ro : Ro} {g : Cfg} {ar : Nat → Nat} {calm : Bool} {h h' : List CEv} {s s' : CSys} {n0 : Nat → Nat} {w : World}

/-- Whenever a thread forked, no call was in progress. -/
def quietForks : List CEv → Prop
  | [] => True
  | .fork _ :: h => busy h = [] ∧ quietForks h
  | _ :: h => quietForks h

/-- No call asked for an alignment above the page size. -/
def allPlain (h : List CEv) : Prop := ∀ t c b, .inv t c b ∈ h → c.Plain

theorem allPlain.tail {e : CEv} (hp : allPlain (e :: h)) : allPlain h := fun t c b hm => hp t c b (List.mem_cons_of_mem _ hm)

theorem busy_mem {t : Nat} {c : Call} : ∀ {h : List CEv}, (t, c) ∈ busy h → ∃ b, .inv t c b ∈ h
  | [], h => nomatch h
  | .inv u d b :: h, hm => by
    rcases List.mem_cons.mp hm with e | e
    · cases e; exact ⟨b, List.mem_cons_self ..⟩
    · exact (busy_mem e).imp fun _ => List.mem_cons_of_mem _
  | .ret u d x :: h, hm => (busy_mem (List.mem_filter.mp hm).1).imp fun _ => List.mem_cons_of_mem _
  | .fork _ :: _, hm => nomatch hm
  | .store .. :: h, hm => (busy_mem (h := h) hm).imp fun _ => List.mem_cons_of_mem _
  | .errno .. :: h, hm => (busy_mem (h := h) hm).imp fun _ => List.mem_cons_of_mem _
  | .foreign .. :: h, hm => (busy_mem (h := h) hm).imp fun _ => List.mem_cons_of_mem _

/-- The bag of a thread that makes no call. -/
def Bag.empty : Bag := ⟨0, noPage, noPage⟩

theorem Bag.empty_clean : Clean calm Bag.empty noPage := ⟨rfl, fun _ _ h => h, fun _ h => h⟩

/-- What is accounted for by the calls in progress (`A t` for the call of thread `t`) and by what they have finished: `K0` was
mapped by the initialisation. Only calls that ask for an alignment above the page size escape the statistics. -/
structure Acc (ro : Ro) (calm : Bool) (K0 : Nat → Prop) (h : List CEv) (s : CSys) (w : World) (A : Nat → Bag) : Prop where
  ok : ∀ t, (A t).Ok (t + 1) w
  idle : ∀ t, s.run t = none → Clean calm (A t) noPage
  run : ∀ t c P, s.run t = some (c, P) → ∀ w', Rely .conc ro (t + 1) w w' →
    LC ro calm (t + 1) P (fun r _ b' => Clean calm b' (fun q => ∃ i, c.gives ((hold h).hand t) r = some (q, i))) w' (A t)
  zero : ∀ p, w.G.blk p ≠ .thr 0
  cov : calm = true → Covers ro.g (fun pg => K0 pg ∨ cforeign h pg = true) (fun p => p ≠ 0 ∧ ∃ t, p = (A t).x) (fun pg => ∃ t, (A t).H pg) w.σ
  plain : allPlain h → w.G.untracked = 0

theorem Bag.Ok.rely {b : Bag} {t : Nat} {w' : World} (hb : b.Ok t w) (tr : Trans ro (· = .thr t) w w') : b.Ok t w' :=
  have e := fun p => (tr.same (.thr t) (by simp) rfl).blk p
  ⟨fun h => (e _).mpr (hb.x h), fun p h => hb.B p ((e p).mp h)⟩

variable {K0 : Nat → Prop} {A : Nat → Bag}

/-- Nobody's call does anything. -/
theorem Acc.other (a : Acc ro calm K0 h s w A) {w' : World} (tr : ∀ u, Trans ro (· = .thr (u + 1)) w w') (er : s'.run = s.run)
    (eh : (hold h').hand = (hold h).hand) (hz : ∀ p, w'.G.blk p = .thr 0 → w.G.blk p = .thr 0)
    (hc : Covers ro.g (fun pg => K0 pg ∨ cforeign h pg = true) (fun p => p ≠ 0 ∧ ∃ t, p = (A t).x) (fun pg => ∃ t, (A t).H pg) w.σ →
      Covers ro.g (fun pg => K0 pg ∨ cforeign h' pg = true) (fun p => p ≠ 0 ∧ ∃ t, p = (A t).x) (fun pg => ∃ t, (A t).H pg) w'.σ)
    (hu : allPlain h' → w'.G.untracked = 0) : Acc ro calm K0 h' s' w' A where
  plain := hu
  ok t := (a.ok t).rely (tr t)
  idle t ht := a.idle t (er ▸ ht)
  run t c P ht w'' r := by
    rw [eh]
    exact a.run t c P (er ▸ ht) w'' ((tr t).trans r)
  zero p hp := a.zero p (hz p hp)
  cov hcalm := hc (a.cov hcalm)

/-- Thread `t` does something; its bag becomes `b`. -/
theorem Acc.become (a : Acc ro calm K0 h s w A) {t : Nat} {w' : World} {b : Bag} (tr : ∀ u, u ≠ t → Trans ro (· = .thr (u + 1)) w w')
    (er : ∀ u, u ≠ t → s'.run u = s.run u) (eh : ∀ u, u ≠ t → (hold h').hand u = (hold h).hand u) (ef : cforeign h' = cforeign h)
    (hz : ∀ p, w'.G.blk p = .thr 0 → w.G.blk p = .thr 0) (hK : ∀ pg, inPages ro.slabStart (ro.arenaSize * ro.g.nArena) pg → K0 pg)
    (ok : b.Ok (t + 1) w') (idle : s'.run t = none → Clean calm b noPage)
    (run : ∀ c P, s'.run t = some (c, P) → ∀ w'', Rely .conc ro (t + 1) w' w'' →
      LC ro calm (t + 1) P (fun r _ b' => Clean calm b' (fun q => ∃ i, c.gives ((hold h').hand t) r = some (q, i))) w'' b)
    (mv : calm = true → (A t).Moves ro (t + 1) w w'.σ b) (hu : allPlain h' → w'.G.untracked = 0) : Acc ro calm K0 h' s' w' (upd A t b) where
  plain := hu
  ok u := by
    unfold upd
    by_cases e : u = t
    · subst e; rw [if_pos rfl]; exact ok
    · rw [if_neg e]; exact (a.ok u).rely (tr u e)
  idle u hu := by
    unfold upd
    by_cases e : u = t
    · subst e; rw [if_pos rfl]; exact idle hu
    · rw [if_neg e]; exact a.idle u (er u e ▸ hu)
  run u c P hu w'' r := by
    unfold upd
    by_cases e : u = t
    · subst e; rw [if_pos rfl]; exact run c P hu w'' r
    · rw [if_neg e, eh u e]; exact a.run u c P (er u e ▸ hu) w'' ((tr u e).trans r)
  zero p hp := a.zero p (hz p hp)
  cov hcalm := by
    have h1 := mv hcalm (fun pg => (K0 pg ∨ cforeign h pg = true) ∨ ∃ u, u ≠ t ∧ (A u).H pg) (fun p => p ≠ 0 ∧ ∃ u, u ≠ t ∧ p = (A u).x)
      (fun pg hp => Or.inl (Or.inl (hK pg hp))) (by
        rintro p ⟨h0, u, hu, rfl⟩
        rw [(a.ok u).x h0]
        exact ⟨by simp [hu], by simp⟩) (by
        intro pg hp
        rcases a.cov hcalm pg hp with k | ⟨r, k1, k2, k3⟩ | k | ⟨u, k⟩
        · exact Or.inl (Or.inl k)
        · by_cases h0 : r.p = 0
          · refine Or.inr (Or.inl ⟨r, k1, ?_, k3⟩)
            exact absurd h0 k1.1
          · refine Or.inr (Or.inl ⟨r, k1, ?_, k3⟩)
            rintro (e | ⟨-, u, -, e⟩)
            · exact k2 ⟨h0, t, e⟩
            · exact k2 ⟨h0, u, e⟩
        · exact Or.inr (Or.inr (Or.inl k))
        · by_cases e : u = t
          · subst e; exact Or.inr (Or.inr (Or.inr k))
          · exact Or.inl (Or.inr ⟨u, e, k⟩))
    intro pg hp
    have up : ∀ u, u ≠ t → upd A t b u = A u := fun u e => if_neg e
    have upt : upd A t b t = b := if_pos rfl
    rcases h1 pg hp with (k | ⟨u, e, k⟩) | ⟨r, k1, k2, k3⟩ | k | k
    · exact Or.inl (by rw [ef]; exact k)
    · exact Or.inr (Or.inr (Or.inr ⟨u, by rw [up u e]; exact k⟩))
    · refine Or.inr (Or.inl ⟨r, k1, ?_, k3⟩)
      rintro ⟨h0, u, e⟩
      by_cases hu : u = t
      · subst hu; rw [upt] at e; exact k2 (Or.inl e)
      · rw [up u hu] at e; exact k2 (Or.inr ⟨h0, u, hu, e⟩)
    · exact Or.inr (Or.inr (Or.inl k))
    · exact Or.inr (Or.inr (Or.inr ⟨t, by rw [upt]; exact k⟩))

/-- Nothing moves between two bags that account for no pages. -/
theorem Bag.Moves.none {b b' : Bag} {t : Nat} (hb : b.x = 0 ∧ ∀ pg, ¬ b.H pg) (hb' : b'.x = 0) : b.Moves ro t w w.σ b' := by
  intro K X hK hX hc pg hp
  rcases hc pg hp with k | ⟨r, k1, k2, k3⟩ | k | k
  · exact Or.inl k
  · exact Or.inr (Or.inl ⟨r, k1, by rw [hb']; rw [hb.1] at k2; exact k2, k3⟩)
  · exact Or.inr (Or.inr (Or.inl k))
  · exact absurd k (hb.2 pg)

/-- The block that an application lends to a call. -/
theorem Lends.lent {H : Hold} {σ : St} {b : Nat} {c : Call} (h0 : H.live 0 = none) (hl : Lends ro H σ b c) : c.lent ((H.live b).map (b, ·)) := by
  have none : b = 0 → (H.live b).map (b, ·) = none := fun e => by rw [e, h0]; rfl
  have key : ∀ p, b = p → (p = 0 ∨ (H.live p).isSome = true) → (p = 0 ∧ (H.live b).map (b, ·) = Option.none) ∨ (p ≠ 0 ∧ ∃ i, (H.live b).map (b, ·) = some (p, i)) := by
    rintro p rfl hp
    by_cases e : b = 0
    · exact Or.inl ⟨e, none e⟩
    · obtain ⟨j, k⟩ := Option.isSome_iff_exists.mp (hp.resolve_left e)
      exact Or.inr ⟨e, j, by rw [k]; rfl⟩
  cases c with
  | free p => exact key p hl.1 hl.2
  | usableSize p => trivial
  | freeSized p n => exact key p hl.1 (hl.2.imp_right fun e => by rw [e]; rfl)
  | realloc p n => exact key p hl.1 (hl.2.imp_right fun ⟨j, e, _⟩ => by rw [e]; rfl)
  | objectSize x => trivial
  | _ => exact none hl

/-- The invariant is kept by every step. -/
theorem Acc.step (hg : Good g ar) (hro : RoOk ro) (eg : ro.g = g) (hK : ∀ pg, inPages ro.slabStart (ro.arenaSize * ro.g.nArena) pg → K0 pg)
    (i : CInv ro calm n0 h s w) (a : Acc ro calm K0 h s w A) (r : CReach g ro ar calm h s) (hq : quietForks h') (st : CStep ro ar calm h s h' s') :
    ∃ n0' w' A', CInv ro calm n0' h' s' w' ∧ Acc ro calm K0 h' s' w' A' := by
  have har : ∀ t, ar t < ro.g.nArena := fun t => by rw [eg]; exact hg.arena t
  cases st with
  | invoke t c b hi hok hl =>
    obtain ⟨w', h1, h2⟩ := i.invoke hro har hi hok hl
    have hlive0 : (hold h).live 0 = none := by
      cases e : (hold h).live 0 with
      | none => rfl
      | some j => have := i.live_app e; rw [blk_zero hro i.inv] at this; cases this
    have hcl := a.idle t hi
    have hno : ∀ p, w.G.blk p ≠ .thr (t + 1) := fun p hp => hcl.B p ((a.ok t).B p hp)
    have hhand : (hold (.inv t c b :: h)).hand t = ((hold h).live b).map (b, ·) := if_pos rfl
    have hσ : w'.σ = w.σ := by rcases h2 with ⟨e, -⟩ | ⟨e, -⟩ <;> rw [e] <;> rfl
    have hblk : ∀ p, w'.G.blk p = .thr (t + 1) → ∃ j, ((hold h).live b).map (b, ·) = some (p, j) := by
      intro p hp
      rcases h2 with ⟨e, -⟩ | ⟨e, k⟩
      · rw [e] at hp; exact absurd hp (hno p)
      · by_cases hpb : p = b
        · obtain ⟨j, k⟩ := Option.isSome_iff_exists.mp k
          exact ⟨j, by rw [k, hpb]; rfl⟩
        · rw [e, give_other _ _ hpb] at hp; exact absurd hp (hno p)
    have hbk : ∀ q j, ((hold h).live b).map (b, ·) = some (q, j) → w'.G.blk q = .thr (t + 1) := by
      intro q j e
      rcases h2 with ⟨-, k⟩ | ⟨e', -⟩
      · rw [k] at e; cases e
      · obtain ⟨j', -, e⟩ := Option.map_eq_some_iff.mp e
        cases e
        rw [e', give_self]
    refine ⟨_, w', _, h1, a.become (t := t) (b := ⟨0, noPage, fun q => ∃ j, ((hold h).live b).map (b, ·) = some (q, j)⟩) (fun u hu => ?_)
      (fun u hu => if_neg hu) (fun u hu => if_neg hu) rfl (fun p hp => ?_) hK ⟨fun e => absurd rfl e, hblk⟩
      (fun e => absurd ((show upd s.run t _ t = some _ from if_pos rfl).symm.trans e) (by simp)) (fun c' P e w'' r => ?_)
      (fun hcalm => by rw [hσ]; exact Bag.Moves.none ⟨hcl.x, hcl.H hcalm⟩ rfl) fun hp => by rcases h2 with ⟨e, -⟩ | ⟨e, -⟩ <;> rw [e] <;> exact a.plain hp.tail⟩
    · rcases h2 with ⟨e, -⟩ | ⟨e, k⟩
      · rw [e]; exact Trans.refl i.inv
      · have happ := (i.app b).mpr k
        rw [e]
        refine give_trans i.inv (by rw [happ]; simp) (by simp) (app_eff i.inv happ) fun h hh => ?_
        rw [hh, happ]; simp [hu]
    · rcases h2 with ⟨e, -⟩ | ⟨e, k⟩
      · rw [e] at hp; exact hp
      · by_cases hpb : p = b
        · rw [e, hpb, give_self] at hp; simp at hp
        · rw [e, give_other _ _ hpb] at hp; exact hp
    · have e := (show upd s.run t _ t = some _ from if_pos rfl).symm.trans e
      cases e
      rw [hhand]
      exact LC.call hro hok ⟨rfl, fun _ _ k => k, fun _ k => k⟩ (fun q j e => (Rely.keeps r).blk q (hbk q j e)) (hl.lent hlive0)
  | @step t c β l f k hc ch he σ' tl' y hf =>
    obtain ⟨ch', hs, hch, _⟩ := i.settle hc he
    have h1 := (i.wp hc).2 _ (i.env ▸ hs.fair)
    have ha := a.run t _ _ hc w (Rely.refl (m := .conc) i.inv)
    rw [hch, i.σ, hf] at h1
    obtain ⟨G', h2, h3⟩ := h1
    obtain ⟨b', k1, k2, k3⟩ := ha ch' (s.tl t) σ' tl' y G' hs i.inv (a.ok t) (by rw [hch, i.σ]; exact hf) h2
    refine ⟨n0, _, _, i.act h2.toTrans (fun c' P e => by cases e; exact ⟨fun hp => ((i.run t _ _ hc).1 hp).2 _, fun w' r => h3 w' r⟩) (fun e => by cases e),
      a.become (t := t) (b := b') (fun u hu => h2.toTrans.weaken fun h hh => by rw [hh]; simp [hu]) (fun u hu => if_neg hu) (fun _ _ => rfl) rfl
        (fun p hp => ((h2.same (.thr 0) (by simp) (by simp)).blk p).mp hp) hK k1
        (fun e => absurd ((show upd s.run t _ t = some _ from if_pos rfl).symm.trans e) (by simp)) (fun c' P e w'' r => ?_) k2 fun hp => ?_⟩
    rotate_left
    · obtain ⟨b, hb⟩ := busy_mem ((r.busy t c).mpr ⟨_, hc⟩)
      have h4 := h2.tracked ((i.run t _ _ hc).1 (hp t c b hb)).1.2
      rw [a.plain hp] at h4
      exact Nat.le_zero.mp h4
    have e := (show upd s.run t _ t = some _ from if_pos rfl).symm.trans e
    cases e
    exact k3 w'' r
  | @ret t c x hc =>
    obtain ⟨w', h1, h2⟩ := i.ret hc
    have hcl : Clean calm (A t) (fun q => ∃ j, c.gives ((hold h).hand t) x = some (q, j)) := a.run t _ _ hc w (Rely.refl (m := .conc) i.inv)
    have hσ : w'.σ = w.σ := by rcases h2 with e | ⟨q, -, -, e⟩ <;> rw [e] <;> rfl
    have hold' : ∀ (o : Holder), o ≠ .app → ∀ p, w'.G.blk p = o → w.G.blk p = o := by
      intro o ho p hp
      rcases h2 with e | ⟨q, k1, -, e⟩
      · rw [e] at hp; exact hp
      · by_cases hpq : p = q
        · rw [e, hpq, give_self] at hp; exact absurd hp.symm ho
        · rw [e, give_other _ _ hpq] at hp; exact hp
    refine ⟨_, w', _, h1, a.become (t := t) (b := Bag.empty) (fun u hu => ?_) (fun u hu => if_neg hu) (fun u hu => if_neg hu) rfl (hold' _ (by simp))
      hK ⟨fun e => absurd rfl e, fun p hp => ?_⟩ (fun _ => Bag.empty_clean) (fun c' P e => absurd ((show upd s.run t none t = none from if_pos rfl).symm.trans e) (by simp))
      (fun hcalm => by rw [hσ]; exact Bag.Moves.none ⟨hcl.x, hcl.H hcalm⟩ rfl) fun hp => by rcases h2 with e | ⟨q, -, -, e⟩ <;> rw [e] <;> exact a.plain hp.tail⟩
    · rcases h2 with e | ⟨q, k1, k2, e⟩
      · rw [e]; exact Trans.refl i.inv
      · rw [e]
        refine give_trans i.inv (by rw [k1]; simp) (by simp) k2 fun h hh => ?_
        rw [hh, k1]; simp [hu]
    · obtain ⟨j, hj⟩ := hcl.B p ((a.ok t).B p (hold' _ (by simp) p hp))
      have hl : (hold (.ret t c x :: h)).live p = some j := by
        show (match c.gives ((hold h).hand t) x with | some (q, i) => _ | none => _) = _
        rw [hj]; exact if_pos rfl
      have := (h1.app p).mpr (by rw [hl]; rfl)
      rw [hp] at this; cases this
  | store x v hp hu h1 h2 =>
    obtain ⟨k1, k2⟩ := i.store hro v hp hu h1 h2
    refine ⟨n0, _, A, k1, a.other (fun u => k2.weaken fun h hh => by rw [hh]; simp) rfl rfl (fun _ e => e) (fun hc pg hp => ?_) fun hp => a.plain hp.tail⟩
    exact hc pg (by rw [show (w.setMem (w.σ.vm.appStore x v)).σ.vm.prot = _ from appStore_prot _ _ _] at hp; exact hp)
  | errno t e hi =>
    refine ⟨n0, w, A, i.stay (t := t) (fun _ _ => rfl) rfl rfl (fun _ => rfl) (fun u hu => ⟨rfl, rfl, rfl, if_neg hu⟩) (fun _ => ?_) (fun c' P e => ?_),
      a.other (fun _ => Trans.refl i.inv) rfl rfl (fun _ e => e) id fun hp => a.plain hp.tail⟩
    · show (if t = t then _ else _ : Tl).unsealed = false
      rw [if_pos rfl]; exact i.tl t hi
    · exact absurd (hi.symm.trans e) (by simp)
  | fork t hi =>
    have hidle : ∀ u, s.run u = none := by
      intro u
      cases e : s.run u with
      | none => rfl
      | some x =>
        have := (r.busy u x.1).mpr ⟨x.2, e⟩
        rw [hq.1] at this; cases this
    have hthr : ∀ p u, w.G.blk p ≠ .thr u := by
      intro p u
      cases u with
      | zero => exact a.zero p
      | succ u => exact fun hp => (a.idle u (hidle u)).B p ((a.ok u).B p hp)
    have hthr' : ∀ p u, w.lost.G.blk p ≠ .thr u := by
      intro p u hp
      have hp : (w.G.blk p).lost = .thr u := hp
      cases e : w.G.blk p with
      | thr v => exact hthr p v e
      | app => rw [e] at hp; cases hp
      | nobody => rw [e] at hp; cases hp
    exact ⟨n0, _, A, i.fork hi, ⟨fun u => ⟨fun e => absurd (a.idle u (hidle u)).x e, fun p hp => absurd hp (hthr' p _)⟩, fun u _ => a.idle u (hidle u),
      fun _ _ _ e => (by cases e), fun p => hthr' p 0, a.cov, fun hp => a.plain hp.tail⟩⟩
  | other pg pr data hp =>
    obtain ⟨k1, k2⟩ := i.other hro hp pr data
    refine ⟨n0, _, A, k1, a.other (fun u => k2.weaken fun h hh => by rw [hh]; simp) rfl rfl (fun _ e => e) (fun hc q hq => ?_) fun hp => a.plain hp.tail⟩
    have hq : (if q = pg then pr else w.σ.vm.prot q) ≠ .unmapped := hq
    have hf : cforeign (.foreign pg (pr != .unmapped) :: h) q = if q = pg then (pr != .unmapped) else cforeign h q := rfl
    by_cases e : q = pg
    · rw [if_pos e] at hq hf
      exact Or.inl (Or.inr (by rw [hf]; simpa using hq))
    · rw [if_neg e] at hq hf
      rcases hc q hq with k | k | k | k
      · exact Or.inl (k.imp_right fun k => by rw [hf]; exact k)
      · exact Or.inr (Or.inl k)
      · exact Or.inr (Or.inr (Or.inl k))
      · exact Or.inr (Or.inr (Or.inr k))

theorem quietForks.tail {h h' : List CEv} (st : CStep ro ar calm h s h' s') (hq : quietForks h') : quietForks h := by
  cases st with
  | fork t hi => exact hq.2
  | _ => exact hq

/-- The initial state. -/
def CSys.init (σ : St) (tl : Nat → Tl) : CSys := ⟨σ, tl, fun _ => none, fun _ => σ⟩

theorem CSteps.reach' {σ0 : St} {tl : Nat → Tl} (hi : Initialised g ro σ0) (htl : ∀ t, (tl t).unsealed = false)
    (r : CSteps ro ar calm [] (CSys.init σ0 tl) h s) : CReach g ro ar calm h s := by
  induction r with
  | refl => exact .init hi htl
  | tail _ st ih => exact ih.next st

/-- Everything is accounted for in every reachable state, provided no call was ever lost in a fork. -/
theorem CSteps.acc {σ0 : St} {tl : Nat → Tl} (hg : Good g ar) (hi : Initialised g ro σ0) (htl : ∀ t, (tl t).unsealed = false)
    (r : CSteps ro ar calm [] (CSys.init σ0 tl) h s) (hq : quietForks h) :
    ∃ n0 w A, CInv ro calm n0 h s w ∧ Acc ro calm (fun pg => σ0.vm.prot pg ≠ .unmapped) h s w A := by
  have hro := hi.roOk hg.valid hg.freeQ
  have hcfg : ro.g = g := hi.post.cfg
  have f0 := (fits_init (ar := ar) hg hi htl true).1
  have hK : ∀ pg, inPages ro.slabStart (ro.arenaSize * ro.g.nArena) pg → σ0.vm.prot pg ≠ .unmapped := fun pg hp =>
    f0.linked.inv.mapped pg (by rw [(f0.linked.inv.slabOwn pg).mpr hp]; simp)
  induction r with
  | refl =>
    obtain ⟨h1, h2, h3⟩ := hi.inv hg.valid hg.freeQ calm
    refine ⟨fun _ => 0, _, fun _ => Bag.empty, ⟨rfl, h1, h2, h3, rfl, fun p => iff_of_false (by simp [Gh.init]) (by simp [hold]), fun _ _ e => (by cases e), fun t _ => htl t, fun _ e => (by cases e), fun _ _ _ e => (by cases e)⟩,
      ⟨fun t => ⟨fun e => absurd rfl e, fun p hp => ?_⟩, fun _ _ => Bag.empty_clean, fun _ _ _ e => (by cases e), fun p => by simp [Gh.init], fun _ pg h => Or.inl (Or.inl h), fun _ => rfl⟩⟩
    simp [Gh.init] at hp
  | tail r st ih =>
    obtain ⟨n0, w, A, i, a⟩ := ih (hq.tail st)
    exact Acc.step hg hro hcfg hK i a (CSteps.reach' hi htl r) hq st

end HM
