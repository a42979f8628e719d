import Verif.LocksInv
/-
The invariant of the lock model holds in all reachable states.
-/
namespace HM.L

structure J (d : Dim) (s : LSys) (st : Nat → Stat) : Prop where
  wf : ∀ t, Wf d (s.pc t) (st t)
  own : ∀ t l, (st t).H l ↔ s.owner l = .held t
  dis : ∀ t, (st t).dis = s.dis t
  yes : ∀ t, (st t).know = .yes → s.inited = true
  no : ∀ t, (st t).know = .no → s.inited = false ∧ (st t).H .init
  arena : ∀ t, match (st t).ar with | some a => s.arena t = a ∧ a < d.na | none => s.arena t = d.na
  reg : s.registered = true → s.inited = true
  cold : s.inited = false → ∀ l ∈ d.full, s.owner l = .free
  lost : ∀ l, s.owner l = .lost → l = .init ∧ ∀ t, (st t).know = .yes
  valid : ∀ t l, (st t).H l → l = .init ∨ l ∈ d.full
  seeded : ∀ t S, (st t).seed = some S → ∀ l, S l → s.seeded l = some s.process
  unseeded : s.inited = true → ∀ l ∈ d.full, s.seeded l = some s.process ∨ ∃ t S, (st t).seed = some S ∧ ¬ S l
  solo : ∀ t S, (st t).seed = some S → s.inited = true → s.solo = some t ∧ ∀ u, u ≠ t → s.pc u = .done
  seedNo : ∀ t S, (st t).seed = some S → s.inited = false → (st t).know = .no
  alone : ∀ t, s.solo = some t → s.dis t = false ∧ ∀ u, u ≠ t → s.pc u = .done ∧ s.dis u = false

theorem upd_same {α : Type} [DecidableEq α] {β : Type} (f : α → β) (x : α) (v : β) : upd f x v x = v := if_pos rfl

theorem upd_ne {α : Type} [DecidableEq α] {β : Type} (f : α → β) {x y : α} (v : β) (h : y ≠ x) : upd f x v y = f y := if_neg h

variable {d : Dim} {s s' : LSys} {st : Nat → Stat} {t : Nat} {σ' : Stat}

theorem J.next (j : J d s st) (hpt : s.pc t ≠ .done) (hpc : ∀ u, u ≠ t → s'.pc u = s.pc u) (hwf : Wf d (s'.pc t) σ')
    (hown : ∀ l, s'.owner l = s.owner l ∨ (s'.owner l = .held t ∧ s.owner l = .free) ∨ (s'.owner l = .free ∧ (s.owner l = .held t ∨ s.owner l = .free)))
    (hH : ∀ l, σ'.H l ↔ s'.owner l = .held t) (hvalid : ∀ l, σ'.H l → l = .init ∨ l ∈ d.full)
    (hd : σ'.dis = (st t).dis) (hd' : s'.dis = s.dis) (hi : s'.inited = s.inited ∨ (s'.inited = true ∧ (st t).know = .no))
    (hyes : σ'.know = .yes → s'.inited = true) (hno : σ'.know = .no → s'.inited = false ∧ σ'.H .init) (hmono : (st t).know = .yes → σ'.know = .yes)
    (har : match σ'.ar with | some a => s'.arena t = a ∧ a < d.na | none => s'.arena t = d.na) (har' : ∀ u, u ≠ t → s'.arena u = s.arena u)
    (hreg : s'.registered = true → s'.inited = true) (hcold : s'.inited = false → ∀ l ∈ d.full, s'.owner l = .free)
    (hpr : s'.process = s.process) (hso : s'.solo = s.solo) (hsd : ∀ l, s'.seeded l = s.seeded l ∨ s'.seeded l = some s.process)
    (hsd1 : ∀ S, σ'.seed = some S → ∀ l, S l → s'.seeded l = some s.process)
    (hsd2 : s.inited = true → ∀ S, (st t).seed = some S → ∀ l, ¬ S l → s'.seeded l = some s.process ∨ ∃ S', σ'.seed = some S' ∧ ¬ S' l)
    (hsd3 : s.inited = false → s'.inited = true → ∀ l ∈ d.full, s'.seeded l = some s.process)
    (hsd4 : ∀ S, σ'.seed = some S → s'.inited = true → s.inited = true ∧ ∃ S, (st t).seed = some S)
    (hsd5 : ∀ S, σ'.seed = some S → s'.inited = false → σ'.know = .no) : J d s' (upd st t σ') := by
  have hinit : ∀ u, (st u).know = .no → (st t).know = .no → u = t := by
    intro u h1 h2
    have a := (j.own u .init).mp (j.no u h1).2
    have b := (j.own t .init).mp (j.no t h2).2
    rw [a] at b; cases b; rfl
  constructor
  · intro u
    by_cases e : u = t
    · subst e; rw [upd_same]; exact hwf
    · rw [upd_ne _ _ e, hpc u e]; exact j.wf u
  · intro u l
    by_cases e : u = t
    · subst e; rw [upd_same]; exact hH l
    · rw [upd_ne _ _ e, j.own u l]
      rcases hown l with h | ⟨h1, h2⟩ | ⟨h1, h2⟩
      · rw [h]
      · rw [h1, h2]; constructor
        · intro h; cases h
        · intro h; cases h; exact absurd rfl e
      · rw [h1]; rcases h2 with h2 | h2 <;> rw [h2] <;> constructor <;> intro h <;> cases h
        exact absurd rfl e
  · intro u
    rw [hd']
    by_cases e : u = t
    · subst e; rw [upd_same, hd]; exact j.dis u
    · rw [upd_ne _ _ e]; exact j.dis u
  · intro u
    by_cases e : u = t
    · subst e; rw [upd_same]; exact hyes
    · rw [upd_ne _ _ e]; intro h
      rcases hi with h1 | h1
      · rw [h1]; exact j.yes u h
      · exact h1.1
  · intro u
    by_cases e : u = t
    · subst e; rw [upd_same]; exact hno
    · rw [upd_ne _ _ e]; intro h
      rcases hi with h1 | h1
      · rw [h1]; exact j.no u h
      · exact absurd (hinit u h h1.2) e
  · intro u
    by_cases e : u = t
    · subst e; rw [upd_same]; exact har
    · rw [upd_ne _ _ e, har' u e]; exact j.arena u
  · exact hreg
  · exact hcold
  · intro l h
    have h0 : s.owner l = .lost := by
      rcases hown l with h1 | ⟨h1, _⟩ | ⟨h1, _⟩
      · rw [← h1]; exact h
      · rw [h1] at h; cases h
      · rw [h1] at h; cases h
    refine ⟨(j.lost l h0).1, fun u => ?_⟩
    by_cases e : u = t
    · subst e; rw [upd_same]; exact hmono ((j.lost l h0).2 u)
    · rw [upd_ne _ _ e]; exact (j.lost l h0).2 u
  · intro u l
    by_cases e : u = t
    · subst e; rw [upd_same]; exact hvalid l
    · rw [upd_ne _ _ e]; exact j.valid u l
  · intro u S
    rw [hpr]
    by_cases e : u = t
    · subst e; rw [upd_same]; exact hsd1 S
    · rw [upd_ne _ _ e]
      intro h l hl
      rcases hsd l with h1 | h1
      · rw [h1]; exact j.seeded u S h l hl
      · exact h1
  · intro h l hl
    rw [hpr]
    cases hI : s.inited with
    | false => exact Or.inl (hsd3 hI h l hl)
    | true =>
      rcases j.unseeded hI l hl with h1 | ⟨u, S, h1, h2⟩
      · rcases hsd l with h3 | h3
        · exact Or.inl (h3.trans h1)
        · exact Or.inl h3
      · by_cases e : u = t
        · subst e
          rcases hsd2 hI S h1 l h2 with h3 | ⟨S', h3, h4⟩
          · exact Or.inl h3
          · exact Or.inr ⟨u, S', by rw [upd_same]; exact h3, h4⟩
        · exact Or.inr ⟨u, S, by rw [upd_ne _ _ e]; exact h1, h2⟩
  · intro u S h hI
    rw [hso]
    by_cases e : u = t
    · subst e
      rw [upd_same] at h
      obtain ⟨h1, S0, h2⟩ := hsd4 S h hI
      obtain ⟨h3, h4⟩ := j.solo u S0 h2 h1
      exact ⟨h3, fun v hv => by rw [hpc v hv]; exact h4 v hv⟩
    · rw [upd_ne _ _ e] at h
      exfalso
      rcases hi with h1 | h1
      · exact hpt ((j.solo u S h (h1 ▸ hI)).2 t (Ne.symm e))
      · exact e (hinit u (j.seedNo u S h (j.no t h1.2).1) h1.2)
  · intro u S
    by_cases e : u = t
    · subst e; rw [upd_same]; exact hsd5 S
    · rw [upd_ne _ _ e]
      intro h hI
      rcases hi with h1 | h1
      · exact j.seedNo u S h (h1 ▸ hI)
      · rw [h1.1] at hI; cases hI
  · intro u h
    rw [hso] at h
    rw [hd']
    refine ⟨(j.alone u h).1, fun v hv => ?_⟩
    by_cases e : v = t
    · subst e; exact absurd ((j.alone u h).2 v hv).1 hpt
    · rw [hpc v e]; exact (j.alone u h).2 v hv

theorem Wf.notDone {k : Code} (h : s.pc t = k) (hk : k ≠ .done) : s.pc t ≠ .done := by rw [h]; exact hk

/-- A step that changes nothing but the program counter, and at most what the thread knows. -/
theorem J.pure (j : J d s st) (hpt : s.pc t ≠ .done) {k : Code} {n : Nat} (hk : (st t).know = .no → σ'.know = .no)
    (hwf : Wf d k σ') (e : σ' = { st t with know := σ'.know }) (hyes : σ'.know = .yes → s.inited = true) (hmono : (st t).know = .yes → σ'.know = .yes)
    (hno : σ'.know = .no → (st t).know = .no) : J d { s with pc := upd s.pc t k, counter := n } (upd st t σ') := by
  have eH : σ'.H = (st t).H := by rw [e]
  have eS : σ'.seed = (st t).seed := by rw [e]
  have eA : σ'.ar = (st t).ar := by rw [e]
  have eD : σ'.dis = (st t).dis := by rw [e]
  refine j.next hpt (fun u hu => upd_ne _ _ hu) (by simp only [upd_same]; exact hwf) (fun l => Or.inl rfl) (fun l => by rw [eH]; exact j.own t l) (fun l => by rw [eH]; exact j.valid t l) eD rfl
    (Or.inl rfl) hyes (fun h => by rw [eH]; exact j.no t (hno h)) hmono (by rw [eA]; exact j.arena t) (fun _ _ => rfl) j.reg j.cold rfl rfl (fun l => Or.inl rfl)
    (fun S h => j.seeded t S (eS ▸ h)) (fun _ S h l hl => Or.inr ⟨S, eS ▸ h, hl⟩) (fun h1 h2 => ?_) (fun S h h1 => ⟨h1, S, eS ▸ h⟩) (fun S h hI => hk (j.seedNo t S (eS ▸ h) hI))
  have h2 : s.inited = true := h2
  rw [h1] at h2; cases h2

theorem J.step (j : J d s st) {n : Nat} {o : Op} (h : s.step t n = some (s', o)) : ∃ st', J d s' st' := by
  have w := j.wf t
  unfold LSys.step at h
  by_cases hdead : s.dead = true
  · rw [if_pos hdead] at h; cases h
  rw [if_neg hdead] at h
  cases hc : s.pc t with
  | done => rw [hc] at h; cases h
  | bad => rw [hc] at h; cases h
  | fatal =>
    rw [hc] at h; cases h
    exact ⟨st, ⟨j.wf, j.own, j.dis, j.yes, j.no, j.arena, j.reg, j.cold, j.lost, j.valid, j.seeded, j.unseeded, j.solo, j.seedNo, j.alone⟩⟩
  | lock l k =>
    rw [hc] at h w
    simp only at h
    by_cases hf : s.owner l = .free
    · rw [if_pos hf] at h; cases h
      obtain ⟨w1, w2, w3, w4⟩ := w
      refine ⟨_, j.next (σ' := { st t with H := fun x => x = l ∨ (st t).H x }) (by rw [hc]; simp) (fun u hu => upd_ne _ _ hu) (by simp only [upd_same]; exact w4) ?_ ?_ ?_ rfl rfl (Or.inl rfl) (j.yes t)
        (fun h => ⟨(j.no t h).1, Or.inr (j.no t h).2⟩) id (j.arena t) (fun _ _ => rfl) j.reg ?_ rfl rfl (fun l => Or.inl rfl) (fun S h => j.seeded t S h) (fun _ S h l hl => Or.inr ⟨S, h, hl⟩)
        (fun h1 h2 => ?_) (fun S h h1 => ⟨h1, S, h⟩) (fun S h hI => j.seedNo t S h hI)⟩
      · intro x
        by_cases e : x = l
        · subst e; exact Or.inr (Or.inl ⟨upd_same _ _ _, hf⟩)
        · exact Or.inl (upd_ne _ _ e)
      · intro x
        by_cases e : x = l
        · subst e; simp [upd_same]
        · simp only [upd_ne _ _ e, e, false_or]; exact j.own t x
      · rintro x (rfl | hx)
        · rcases w1 with ⟨a, _⟩ | ⟨a, _⟩
          · exact Or.inl a
          · exact Or.inr a
        · exact j.valid t x hx
      · intro hI x hx
        have hI : s.inited = false := hI
        by_cases e : x = l
        · subst e
          rcases w1 with ⟨a, _⟩ | ⟨_, a⟩
          · subst a; exact absurd hx init_not_full
          · rw [j.yes t a] at hI; cases hI
        · simp only [upd_ne _ _ e]; exact j.cold hI x hx
      · have h2 : s.inited = true := h2
        rw [h1] at h2; cases h2
    · rw [if_neg hf] at h; cases h
  | unlock l k =>
    rw [hc] at h w
    cases h
    obtain ⟨w1, w2, w3⟩ := w
    have ho := (j.own t l).mp w1
    refine ⟨_, j.next (σ' := { st t with H := fun x => x ≠ l ∧ (st t).H x }) (by rw [hc]; simp) (fun u hu => upd_ne _ _ hu) (by simp only [upd_same]; exact w3) ?_ ?_ ?_ rfl rfl (Or.inl rfl) (j.yes t)
        (fun h => ⟨(j.no t h).1, fun e => w2 e.symm h, (j.no t h).2⟩) id (j.arena t) (fun _ _ => rfl) j.reg ?_ rfl rfl (fun l => Or.inl rfl) (fun S h => j.seeded t S h) (fun _ S h l hl => Or.inr ⟨S, h, hl⟩)
        (fun h1 h2 => ?_) (fun S h h1 => ⟨h1, S, h⟩) (fun S h hI => j.seedNo t S h hI)⟩
    · intro x
      by_cases e : x = l
      · subst e; exact Or.inr (Or.inr ⟨upd_same _ _ _, Or.inl ho⟩)
      · exact Or.inl (upd_ne _ _ e)
    · intro x
      by_cases e : x = l
      · subst e; simp [upd_same]
      · simp only [upd_ne _ _ e, ne_eq, e, not_false_eq_true, true_and]; exact j.own t x
    · rintro x ⟨_, hx⟩
      exact j.valid t x hx
    · intro hI x hx
      by_cases e : x = l
      · subst e; exact upd_same _ _ _
      · simp only [upd_ne _ _ e]; exact j.cold hI x hx
    · have h2 : s.inited = true := h2
      rw [h1] at h2; cases h2
  | newLock l k =>
    rw [hc] at h w
    cases h
    obtain ⟨w1, w2, w3, w4⟩ := w
    have ho : s.owner l = .held t ∨ s.owner l = .free := by
      rcases w2 with w2 | w2
      · exact Or.inr (j.cold (j.no t w2).1 l w1)
      · exact Or.inl ((j.own t l).mp w2)
    refine ⟨_, j.next (σ' := { st t with H := fun x => x ≠ l ∧ (st t).H x }) (by rw [hc]; simp) (fun u hu => upd_ne _ _ hu) (by simp only [upd_same]; exact w4) ?_ ?_ ?_ rfl rfl (Or.inl rfl) (j.yes t)
        (fun h => ⟨(j.no t h).1, fun e => init_not_full (e ▸ w1), (j.no t h).2⟩) id (j.arena t) (fun _ _ => rfl) j.reg ?_ rfl rfl (fun l => Or.inl rfl) (fun S h => j.seeded t S h) (fun _ S h l hl => Or.inr ⟨S, h, hl⟩)
        (fun h1 h2 => ?_) (fun S h h1 => ⟨h1, S, h⟩) (fun S h hI => j.seedNo t S h hI)⟩
    · intro x
      by_cases e : x = l
      · subst e; exact Or.inr (Or.inr ⟨upd_same _ _ _, ho⟩)
      · exact Or.inl (upd_ne _ _ e)
    · intro x
      by_cases e : x = l
      · subst e; simp [upd_same]
      · simp only [upd_ne _ _ e, ne_eq, e, not_false_eq_true, true_and]; exact j.own t x
    · rintro x ⟨_, hx⟩
      exact j.valid t x hx
    · intro hI x hx
      by_cases e : x = l
      · subst e; exact upd_same _ _ _
      · simp only [upd_ne _ _ e]; exact j.cold hI x hx
    · have h2 : s.inited = true := h2
      rw [h1] at h2; cases h2
  | touch l k =>
    rw [hc] at h w; cases h
    exact ⟨_, j.pure (σ' := st t) (by rw [hc]; simp) id w.2.2.2.2 rfl (j.yes t) id id⟩
  | seed l k =>
    rw [hc] at h w; cases h
    obtain ⟨S, w1, w2⟩ := w
    refine ⟨_, j.next (σ' := { st t with seed := some fun x => x = l ∨ S x }) (by rw [hc]; simp) (fun u hu => upd_ne _ _ hu) (by simp only [upd_same]; exact w2) (fun _ => Or.inl rfl) (j.own t) (j.valid t) rfl rfl (Or.inl rfl) (j.yes t)
        (j.no t) id (j.arena t) (fun _ _ => rfl) j.reg j.cold rfl rfl ?_ ?_ ?_ (fun h1 h2 => ?_) (fun S' h h1 => ⟨h1, S, w1⟩) (fun S' h hI => j.seedNo t S w1 hI)⟩
    · intro x
      by_cases e : x = l
      · subst e; exact Or.inr (upd_same _ _ _)
      · exact Or.inl (upd_ne _ _ e)
    · intro S' h x hx
      cases h
      by_cases e : x = l
      · subst e; exact upd_same _ _ _
      · simp only [upd_ne _ _ e]; exact j.seeded t S w1 x (hx.resolve_left e)
    · intro _ S' h x hx
      rw [w1] at h; cases h
      by_cases e : x = l
      · subst e; exact Or.inl (upd_same _ _ _)
      · refine Or.inr ⟨_, rfl, fun h => ?_⟩
        exact h.elim e hx
    · have h2 : s.inited = true := h2
      rw [h1] at h2; cases h2
  | isInit k =>
    rw [hc] at h w; cases h
    obtain ⟨w1, w2, w3, w4⟩ := w
    rcases Bool.eq_false_or_eq_true s.inited with hI | hI
    · exact ⟨_, j.pure (σ' := { st t with know := .yes }) (by rw [hc]; simp) (fun h => absurd h w1) (by rw [hI]; exact w3) rfl (fun _ => hI) (fun _ => rfl) (fun h => by cases h)⟩
    · have hu : (st t).know = .unknown := by
        cases e : (st t).know with
        | unknown => rfl
        | yes => have := j.yes t e; rw [hI] at this; cases this
        | no => exact absurd e w1
      by_cases hH : (st t).H .init
      · refine ⟨_, j.next (σ' := { st t with know := .no, seed := some fun _ => False }) (by rw [hc]; simp) (fun u hu => upd_ne _ _ hu) (by simp only [upd_same]; rw [hI]; exact (w4 hu).1 hH) (fun _ => Or.inl rfl) (j.own t) (j.valid t) rfl rfl (Or.inl rfl)
          (fun h => by cases h) (fun _ => ⟨hI, hH⟩) (fun h => by rw [hu] at h; cases h) (j.arena t) (fun _ _ => rfl) j.reg j.cold rfl rfl (fun _ => Or.inl rfl)
          (fun S h l hl => by cases h; exact hl.elim) (fun h => by rw [hI] at h; cases h) (fun h1 h2 => ?_) (fun S h h1 => ?_) (fun _ _ _ => rfl)⟩
        · have h2 : s.inited = true := h2
          rw [h1] at h2; cases h2
        · have h1 : s.inited = true := h1
          rw [hI] at h1; cases h1
      · exact ⟨_, j.pure (σ' := st t) (by rw [hc]; simp) id (by rw [hI]; exact (w4 hu).2 hH) rfl (j.yes t) id id⟩
  | publish k =>
    rw [hc] at h w; cases h
    obtain ⟨w1, ⟨S, w2, w3⟩, w4⟩ := w
    have hI := (j.no t w1).1
    refine ⟨_, j.next (σ' := { st t with know := .yes, seed := none }) (by rw [hc]; simp) (fun u hu => upd_ne _ _ hu) (by simp only [upd_same]; exact w4) (fun _ => Or.inl rfl) (j.own t) (j.valid t) rfl rfl (Or.inr ⟨rfl, w1⟩)
      (fun _ => rfl) (fun h => by cases h) (fun _ => rfl) (j.arena t) (fun _ _ => rfl) (fun _ => rfl) (fun h => by cases h) rfl rfl (fun _ => Or.inl rfl)
      (fun S h => by cases h) (fun h => by rw [hI] at h; cases h) (fun _ _ l hl => j.seeded t S w2 l (w3 l hl)) (fun S h => by cases h) (fun S h => by cases h)⟩
  | getArena k =>
    rw [hc] at h w; cases h
    refine ⟨_, j.pure (σ' := st t) (by rw [hc]; simp) id ?_ rfl (j.yes t) id id⟩
    have ha := j.arena t
    unfold Wf at w
    cases e : (st t).ar with
    | some a => rw [e] at w ha; simp only at w ha; rw [ha.1]; exact w.2
    | none => rw [e] at w ha; simp only at w ha; rw [ha]; exact w
  | nextArena k =>
    rw [hc] at h w; cases h
    exact ⟨_, j.pure (σ' := st t) (by rw [hc]; simp) id (w _) rfl (j.yes t) id id⟩
  | setArena a k =>
    rw [hc] at h w; cases h
    obtain ⟨w1, w2, w3⟩ := w
    refine ⟨_, j.next (σ' := { st t with ar := some a }) (by rw [hc]; simp) (fun u hu => upd_ne _ _ hu) (by simp only [upd_same]; exact w3) (fun _ => Or.inl rfl) (j.own t) (j.valid t) rfl rfl (Or.inl rfl) (j.yes t)
        (j.no t) id ⟨upd_same _ _ _, w2⟩ (fun _ hu => upd_ne _ _ hu) j.reg j.cold rfl rfl (fun _ => Or.inl rfl) (fun S h => j.seeded t S h) (fun _ S h l hl => Or.inr ⟨S, h, hl⟩)
        (fun h1 h2 => ?_) (fun S h h1 => ⟨h1, S, h⟩) (fun S h hI => j.seedNo t S h hI)⟩
    have h2 : s.inited = true := h2
    rw [h1] at h2; cases h2
  | uses a k =>
    rw [hc] at h w; cases h
    exact ⟨_, j.pure (σ' := st t) (by rw [hc]; simp) id w.2.2.2 rfl (j.yes t) id id⟩
  | atfork k =>
    rw [hc] at h w; cases h
    refine ⟨_, j.next (σ' := st t) (by rw [hc]; simp) (fun u hu => upd_ne _ _ hu) (by simp only [upd_same]; exact w.2) (fun _ => Or.inl rfl) (j.own t) (j.valid t) rfl rfl (Or.inl rfl) (j.yes t)
        (j.no t) id (j.arena t) (fun _ _ => rfl) (fun _ => j.yes t w.1) j.cold rfl rfl (fun _ => Or.inl rfl) (fun S h => j.seeded t S h) (fun _ S h l hl => Or.inr ⟨S, h, hl⟩)
        (fun h1 h2 => ?_) (fun S h h1 => ⟨h1, S, h⟩) (fun S h hI => j.seedNo t S h hI)⟩
    have h2 : s.inited = true := h2
    rw [h1] at h2; cases h2
  | handlers k =>
    rw [hc] at h w; cases h
    obtain ⟨w1, w2, w3, w4⟩ := w
    rcases Bool.eq_false_or_eq_true s.registered with hI | hI
    · exact ⟨_, j.pure (σ' := { st t with know := .yes }) (by rw [hc]; simp) (fun h => absurd h w1) (by rw [hI]; exact w4) rfl (fun _ => j.reg hI) (fun _ => rfl) (fun h => by cases h)⟩
    · exact ⟨_, j.pure (σ' := st t) (by rw [hc]; simp) id (by rw [hI]; exact w3) rfl (j.yes t) id id⟩
  | fork p c =>
    rw [hc] at h w; cases h
    exact ⟨_, j.pure (σ' := st t) (by rw [hc]; simp) id w.2.1 rfl (j.yes t) id id⟩
  | choose k =>
    rw [hc] at h w; cases h
    exact ⟨_, j.pure (σ' := st t) (by rw [hc]; simp) id (w _) rfl (j.yes t) id id⟩

/-- A thread that has nothing to do holds no locks, unless it has disabled the allocator. -/
theorem J.begin (j : J d s st) (hc : s.pc t = .done) (hd : s.dis t = false) : Begin { st t with seed := none } := by
  have w := j.wf t
  rw [hc] at w
  obtain ⟨w1, w2, w3, w4, w5⟩ := w
  refine ⟨w2, w3, ?_, rfl⟩
  funext l
  exact propext ⟨fun h => by have := (w1 l).mp h; rw [j.dis t, hd] at this; exact absurd this.1 (by simp), False.elim⟩

theorem J.start (hna : 0 < d.na) (j : J d s st) {c : LCall} {o : Op} (h : s.start d t c = some (s', o)) : ∃ st', J d s' st' := by
  unfold LSys.start at h
  cases hc : s.pc t with
  | done =>
    rw [hc] at h
    simp only at h
    by_cases hdf : (s.dead || !s.forked) = true
    · rw [if_pos hdf] at h; cases h
    rw [if_neg hdf] at h
    by_cases hg : s.dis t = c.isEnable
    · rw [if_pos hg] at h
      cases h
      have hf : s.forked = true := by
        cases e : s.forked
        · rw [e] at hdf; simp at hdf
        · rfl
      have w := j.wf t
      rw [hc] at w
      obtain ⟨w1, w2, w3, w4, w5⟩ := w
      -- nobody has to seed anything, except during the initialisation
      have hseed : ∀ u S, (st u).seed = some S → s.inited = true → s.pc u = .done ∧ ∀ l ∈ d.full, S l := by
        intro u S h1 h2
        obtain ⟨h3, h4⟩ := j.solo u S h1 h2
        have h5 : s.pc u = .done := by
          unfold LSys.forked at hf
          rw [h3] at hf
          simp only at hf
          cases e : s.pc u <;> rw [e] at hf <;> first | rfl | cases hf
        refine ⟨h5, ?_⟩
        have := j.wf u
        rw [h5] at this
        exact this.2.2.2.2 S h1
      have hall : s.inited = true → ∀ l ∈ d.full, s.seeded l = some s.process := by
        intro h1 l hl
        rcases j.unseeded h1 l hl with h2 | ⟨u, S, h2, h3⟩
        · exact h2
        · exact absurd ((hseed u S h2 h1).2 l hl) h3
      have har : ∀ a, (st t).ar = some a → a < d.na := by
        intro a ha
        have := j.arena t
        rw [ha] at this
        exact this.2
      let dis' : Bool := c.isDisable
      let st' : Nat → Stat := fun u => if u = t then { st t with seed := none, dis := dis' } else if s.inited then { st u with seed := none } else st u
      have e1 : st' t = { st t with seed := none, dis := dis' } := if_pos rfl
      have e2 : ∀ u, u ≠ t → (st' u).H = (st u).H ∧ (st' u).know = (st u).know ∧ (st' u).ar = (st u).ar ∧ (st' u).dis = (st u).dis ∧
          ((st' u).seed = none ∨ (s.inited = false ∧ (st' u).seed = (st u).seed)) := by
        intro u hu
        show (if u = t then _ else _ : Stat).H = _ ∧ (if u = t then _ else _ : Stat).know = _ ∧ (if u = t then _ else _ : Stat).ar = _ ∧ (if u = t then _ else _ : Stat).dis = _ ∧ ((if u = t then _ else _ : Stat).seed = _ ∨ (s.inited = false ∧ (if u = t then _ else _ : Stat).seed = _))
        rw [if_neg hu]
        cases s.inited
        · exact ⟨rfl, rfl, rfl, rfl, Or.inr ⟨rfl, rfl⟩⟩
        · exact ⟨rfl, rfl, rfl, rfl, Or.inl rfl⟩
      have eH : ∀ u, (st' u).H = (st u).H := fun u => by
        by_cases e : u = t
        · subst e; rw [e1]
        · exact (e2 u e).1
      have eK : ∀ u, (st' u).know = (st u).know := fun u => by
        by_cases e : u = t
        · subst e; rw [e1]
        · exact (e2 u e).2.1
      have eA : ∀ u, (st' u).ar = (st u).ar := fun u => by
        by_cases e : u = t
        · subst e; rw [e1]
        · exact (e2 u e).2.2.1
      have eS : ∀ u S, (st' u).seed = some S → s.inited = false ∧ (st u).seed = some S := fun u S h => by
        by_cases e : u = t
        · subst e; rw [e1] at h; cases h
        · rcases (e2 u e).2.2.2.2 with h1 | ⟨h1, h2⟩
          · rw [h1] at h; cases h
          · exact ⟨h1, h2 ▸ h⟩
      refine ⟨st', ?_⟩
      constructor
      · intro u
        by_cases e : u = t
        · subst e
          simp only [upd_same]
          rw [e1]
          by_cases hen : c = .enable
          · subst hen
            have hd : s.dis u = true := hg
            refine enable_wf (w4 (by rw [j.dis u]; exact hd)) ?_ rfl rfl
            funext l
            refine propext ((w1 l).trans ?_)
            rw [j.dis u, hd]; simp
          · have hd : s.dis u = false := by
              rw [hg]
              cases c <;> first | rfl | exact absurd rfl hen
            have hb := j.begin hc hd
            by_cases hdi : c = .disable
            · subst hdi
              exact disable_wf hna (σ := { st u with seed := none, dis := true }) ⟨hb.know, hb.ar, hb.H, rfl⟩ har rfl
            · have : dis' = false := by
                show c.isDisable = false
                cases c <;> first | rfl | exact absurd rfl hdi
              refine code_wf hna (σ := { st u with seed := none, dis := dis' }) ⟨hb.know, hb.ar, hb.H, rfl⟩ har this c hen hdi
        · simp only [upd_ne _ _ e]
          have wu := j.wf u
          cases hI : s.inited with
          | false =>
            have : st' u = st u := by
              show (if u = t then _ else if s.inited = true then _ else _) = _
              rw [if_neg e, if_neg (by rw [hI]; simp)]
            rw [this]; exact wu
          | true =>
            have : st' u = { st u with seed := none } := by
              show (if u = t then _ else if s.inited = true then _ else _) = _
              rw [if_neg e, if_pos hI]
            rw [this]
            cases hs : (st u).seed with
            | none => rw [← hs]; exact wu
            | some S =>
              rw [(hseed u S hs hI).1] at wu ⊢
              exact ⟨wu.1, wu.2.1, wu.2.2.1, wu.2.2.2.1, fun S h => by cases h⟩
      · intro u l; rw [eH]; exact j.own u l
      · intro u
        by_cases e : u = t
        · subst e; rw [e1]; exact (upd_same _ _ _).symm
        · simp only [upd_ne _ _ e]; rw [(e2 u e).2.2.2.1]; exact j.dis u
      · intro u; rw [eK]; exact j.yes u
      · intro u; rw [eK, eH]; exact j.no u
      · intro u; rw [eA]; exact j.arena u
      · exact j.reg
      · exact j.cold
      · intro l h
        refine ⟨(j.lost l h).1, fun u => ?_⟩
        rw [eK]; exact (j.lost l h).2 u
      · intro u l; rw [eH]; exact j.valid u l
      · intro u S h; exact j.seeded u S (eS u S h).2
      · intro h l hl; exact Or.inl (hall h l hl)
      · intro u S h hI
        have hI : s.inited = true := hI
        rw [(eS u S h).1] at hI; cases hI
      · intro u S h hI; rw [eK]; exact j.seedNo u S (eS u S h).2 hI
      · intro u h; cases h
    · rw [if_neg hg] at h; cases h
  | _ => rw [hc] at h; cases h

theorem J.fork (j : J d s st) {n : Nat} (hp : s.pc t = .fork (fullUnlock d .done) (postForkChild d .done)) :
    ∃ st', J d (s.forkChild d t n (postForkChild d .done)) st' := by
  have w := j.wf t
  rw [hp] at w
  obtain ⟨w1, _, w3⟩ := w
  obtain ⟨w3, w4, w5⟩ := w3 rfl
  have hI := j.yes t w4
  have hfull : ∀ l ∈ d.full, s.owner l = .held t := fun l hl => (j.own t l).mp ((w3 l).mpr hl)
  have hH : (st t).H = fun x => x ∈ d.full := funext fun l => propext (w3 l)
  let st' : Nat → Stat := fun u => if u = t then { st t with seed := some fun _ => False } else ⟨false, .yes, none, fun _ => False, none⟩
  have e1 : st' t = { st t with seed := some fun _ => False } := if_pos rfl
  have e2 : ∀ u, u ≠ t → st' u = ⟨false, .yes, none, fun _ => False, none⟩ := fun u hu => if_neg hu
  have ho : ∀ l u, (s.forkChild d t n (postForkChild d .done)).owner l = .held u ↔ (u = t ∧ s.owner l = .held t) := by
    intro l u
    show (match s.owner l with | .free => Own.free | .held u => if u = t then .held t else .lost | .lost => .lost) = _ ↔ _
    cases s.owner l with
    | free => simp
    | lost => simp
    | held v =>
      by_cases e : v = t
      · subst e; simp only [if_true, Own.held.injEq, and_true]; exact eq_comm
      · simp only [if_neg e]
        constructor
        · intro h; cases h
        · rintro ⟨_, h⟩; cases h; exact absurd rfl e
  refine ⟨st', ?_⟩
  constructor
  · intro u
    show Wf d (if u = t then _ else _) _
    by_cases e : u = t
    · subst e
      rw [if_pos rfl, e1]
      exact postForkChild_wf w4 hH rfl w5
    · rw [if_neg e, e2 u e]
      exact done_wf' ⟨rfl, rfl, rfl⟩ rfl
  · intro u l
    rw [ho]
    by_cases e : u = t
    · subst e; rw [e1]; simp only [true_and]; exact j.own u l
    · rw [e2 u e]; simp [e]
  · intro u
    show _ = if u = t then _ else _
    by_cases e : u = t
    · subst e; rw [e1, if_pos rfl]; exact j.dis u
    · rw [e2 u e, if_neg e]
  · exact fun _ _ => hI
  · intro u h
    by_cases e : u = t
    · subst e; rw [e1] at h; have h : (st u).know = .no := h; rw [w4] at h; cases h
    · rw [e2 u e] at h; cases h
  · intro u
    by_cases e : u = t
    · subst e
      rw [e1]
      have := j.arena u
      show match (st u).ar with | some a => (if u = u then s.arena u else d.na) = a ∧ a < d.na | none => (if u = u then s.arena u else d.na) = d.na
      rw [if_pos rfl]; exact this
    · rw [e2 u e]; exact if_neg e
  · exact fun _ => hI
  · intro h
    have h : s.inited = false := h
    rw [hI] at h; cases h
  · intro l h
    refine ⟨?_, fun u => ?_⟩
    · by_contra hne
      have h : (match s.owner l with | .free => Own.free | .held u => if u = t then .held t else .lost | .lost => .lost) = .lost := h
      cases e : s.owner l with
      | free => rw [e] at h; cases h
      | lost => exact hne (j.lost l e).1
      | held v =>
        rw [e] at h
        simp only at h
        by_cases e' : v = t
        · rw [if_pos e'] at h; cases h
        · rcases j.valid v l ((j.own v l).mpr e) with h1 | h1
          · exact hne h1
          · rw [hfull l h1] at e; cases e; exact e' rfl
    · by_cases e : u = t
      · subst e; rw [e1]; exact w4
      · rw [e2 u e]
  · intro u l h
    by_cases e : u = t
    · subst e; rw [e1] at h; exact j.valid u l h
    · rw [e2 u e] at h; exact h.elim
  · intro u S h l hl
    by_cases e : u = t
    · subst e; rw [e1] at h; cases h; exact hl.elim
    · rw [e2 u e] at h; cases h
  · intro _ l _
    exact Or.inr ⟨t, _, by rw [e1], fun h => h⟩
  · intro u S h _
    by_cases e : u = t
    · subst e; exact ⟨rfl, fun v hv => if_neg hv⟩
    · rw [e2 u e] at h; cases h
  · intro u S h hI'
    have hI' : s.inited = false := hI'
    rw [hI] at hI'; cases hI'
  · intro u h
    obtain rfl : t = u := by cases h; rfl
    refine ⟨?_, fun v hv => ⟨if_neg hv, if_neg hv⟩⟩
    show (if t = t then s.dis t else false) = false
    rw [if_pos rfl, ← j.dis t]; exact w5

theorem LReach.inv (hna : 0 < d.na) {h : List (Nat × Op)} (r : LReach d h s) : ∃ st, J d s st := by
  induction r with
  | exec n =>
    refine ⟨fun _ => ⟨false, .unknown, none, fun _ => False, none⟩, ?_⟩
    constructor
    · exact fun t => done_wf ⟨by simp, by simp, rfl, rfl⟩ rfl
    · intro t l; simp [LSys.fresh]
    · intro t; rfl
    · intro t h; cases h
    · intro t h; cases h
    · intro t; rfl
    · intro h; cases h
    · intro _ l _; rfl
    · intro l h; cases h
    · intro t l h; exact h.elim
    · intro t S h; cases h
    · intro h; cases h
    · intro t S h; cases h
    · intro t S h; cases h
    · intro t h; cases h
  | step r hs ih =>
    obtain ⟨st, j⟩ := ih
    cases hs with
    | run h => exact j.step h
    | start h => exact j.start hna h
  | fork n r hp hn hd ih =>
    obtain ⟨st, j⟩ := ih
    exact j.fork hp

end HM.L
