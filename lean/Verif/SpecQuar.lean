import Verif.SpecLarge
/-
The quarantine of large allocations (h_malloc.c:973-1015).
-/
namespace HM

variable {ro : Ro} {m : Mode} {t : Nat} {F : Bad → Choice → World → Prop}

/-- How many later regions a quarantined region waits for, at least. -/
def Cfg.regionDelay (g : Cfg) : Nat := if g.regionQRandom = 0 then g.regionQQueue else g.regionQQueue + 1

/-- The result of putting region `e` into the quarantine. -/
structure QuarPost (m : Mode) (ro : Ro) (t : Nat) (e : Nat × Nat) (w : World) (out : Option (Nat × Nat)) (w' : World) : Prop where
  at_ : At m ro t noBlock noFree (1, 0) w w'
  out : ∀ e', out = some e' → QEntryOk e' ∧ Held t (inPages e'.1 e'.2) w'
  delay : m = .seq → ∀ pg, inPages e.1 e.2 pg → ro.g.regionDelay ≤ pageDelay ro.g w' pg
  vm : m = .seq → w'.σ.vm = w.σ.vm
  wait : ro.g.regionQuarantine = true → ∀ pg, inPages e.1 e.2 pg → ro.g.regionDelay + w.G.pushes + 1 ≤ pageDelay ro.g w' pg + w'.G.pushes

theorem queue_delay {qi Q : Nat} (h : qi < Q) : Q ≤ (qi + Q - (qi + 1) % Q) % Q + 1 := by
  by_cases e : qi + 1 = Q
  · rw [e, Nat.mod_self]
    have : (qi + Q - 0) % Q = qi := by rw [Nat.sub_zero, Nat.add_mod_right, Nat.mod_eq_of_lt h]
    omega
  · have h1 : (qi + 1) % Q = qi + 1 := Nat.mod_eq_of_lt (by omega)
    rw [h1, show qi + Q - (qi + 1) = Q - 1 by omega, Nat.mod_eq_of_lt (by omega)]
    omega

theorem QuarPost.of {e : Nat × Nat} {w : World} {qr qq : Nat → Nat × Nat} {qi : Nat} {own : Nat → Owner} {out : Option (Nat × Nat)}
    (hro : RoOk ro) (hi : GInv ro w) (s : QuarStep ro t w qr qq qi own 1)
    (ho : ∀ e', out = some e' → QEntryOk e' ∧ ∀ pg, inPages e'.1 e'.2 pg → own pg = .held t)
    (hd : ∀ pg, inPages e.1 e.2 pg → ro.g.regionDelay ≤ pageDelay ro.g (w.setQuar qr qq qi own 1) pg) {w2 : World}
    (hr : Rely m ro t (w.setQuar qr qq qi own 1) w2) : QuarPost m ro t e w out w2 where
  at_ := (At.ofGuar (s.trans hro hi) (fun q _ => s.keepB hro hi q) (fun _ _ => Nat.le_refl _) (Nat.le_refl _) (Nat.le_refl _)).rely hr
  out := fun e' h => ⟨(ho e' h).1, Held.rely (s.ginv hro hi) hr (ho e' h).2⟩
  delay := fun hm pg hx => by rw [hr.seq hm]; exact hd pg hx
  vm := fun hm => by rw [hr.seq hm]; rfl
  wait := fun _ pg hx => by
    have h1 := hd pg hx
    have h2 := (hr.trans' (s.ginv hro hi)).delay.page pg
    have h3 := (hr.trans' (s.ginv hro hi)).delay.pushes
    have h4 : (w.setQuar qr qq qi own 1).G.pushes = w.G.pushes + 1 := rfl
    omega

theorem QuarStep.counted {w : World} {qr qq : Nat → Nat × Nat} {qi : Nat} {own : Nat → Owner}
    (_ : QuarStep ro t w qr qq qi own 1) : Counted ro (some (.regions true false)) w (w.setQuar qr qq qi own 1) :=
  ⟨fun _ _ => Nat.le_refl _, Nat.le_refl _, fun _ _ _ _ _ _ => Or.inl rfl, fun _ => Nat.le_refl _⟩

theorem pageDelay_qr {g : Cfg} {w : World} {pg i : Nat} (h : w.G.own pg = .qr i) : pageDelay g w pg = g.regionQQueue + 1 := by
  unfold pageDelay; rw [h]

theorem pageDelay_qq {g : Cfg} {w : World} {pg i : Nat} (h : w.G.own pg = .qq i) :
    pageDelay g w pg = (i + g.regionQQueue - w.σ.qi) % g.regionQQueue + 1 := by
  unfold pageDelay; rw [h]

/-- h_malloc.c:990-1010. -/
theorem quarantineRegion_wp {e : Nat × Nat} {tl : Tl} {w : World} (hro : RoOk ro) (hi : GInv ro w) (hu : Unsealed ro tl)
    (he : QEntryOk e) (hh : Held t (inPages e.1 e.2) w) (hpr : w.G.calm = true → ∀ pg, inPages e.1 e.2 pg → w.σ.vm.prot pg ≠ .rw) :
    WP m ro t F (quarantineRegion ro e) (fun r tl' w' => tl' = tl ∧ QuarPost m ro t e w r w') tl w := by
  have he0 : e.1 ≠ 0 := by have := he.lo; omega
  refine WP.critical (fun _ => quarantineRegion_local) hu fun ch _ => ?_
  unfold pushRegionRandom
  by_cases h1 : ro.g.regionQRandom = 0
  · rw [if_pos h1]
    simp only
    rw [if_neg he0]
    unfold pushRegionQueue
    by_cases h2 : ro.g.regionQQueue = 0
    · rw [if_pos h2]
      simp only
      rw [if_neg he0]
      refine ⟨w.G, (Trans.refl hi).quiet, fun w2 hr => ⟨trivial, ?_, ?_, ?_, fun hm => by rw [hr.seq hm], ?_⟩⟩
      · exact (Idle.ofRely hi hr).mono (fun _ h => h) (fun _ _ => Nat.le_refl _) (by constructor <;> simp)
      · rintro _ ⟨⟩; exact ⟨he, hh.rely hi hr⟩
      · intro _ pg _; unfold Cfg.regionDelay; rw [if_pos h1, h2]; exact Nat.zero_le _
      · intro k; unfold Cfg.regionQuarantine at k; rw [h1, h2] at k; simp at k
    · rw [if_neg h2]
      have s := quarStep_queue (e := e) hi h2 he hh hpr
      have hq := hi.qi h2
      refine ⟨_, ⟨s.trans hro hi, s.counted⟩, fun w2 hr => ⟨rfl, QuarPost.of hro hi s ?_ ?_ hr⟩⟩
      · intro e' h
        by_cases h3 : (w.σ.qq w.σ.qi).1 = 0
        · simp only [h3, if_true] at h; simp at h
        · simp only [h3, if_false, Option.some.injEq] at h
          subst h
          refine ⟨hi.qqOk _ hq h3, fun pg hx => ?_⟩
          have ho := (hi.qqOwn pg w.σ.qi).mpr ⟨hq, h3, hx⟩
          unfold ownQueue
          rw [if_neg fun k => by rw [hh pg k] at ho; exact absurd ho (by simp), if_pos ho]
      · intro pg hx
        have ho : (w.setQuar w.σ.qr (setAt w.σ.qq w.σ.qi e) ((w.σ.qi + 1) % ro.g.regionQQueue) (ownQueue w t e) 1).G.own pg = .qq w.σ.qi := by
          show ownQueue w t e pg = _
          unfold ownQueue; rw [if_pos hx]
        rw [pageDelay_qq ho]
        unfold Cfg.regionDelay; rw [if_pos h1]
        exact queue_delay hq
  · rw [if_neg h1]
    simp only
    have hlt : ch.guard % ro.g.regionQRandom < ro.g.regionQRandom := Nat.mod_lt _ (by omega)
    generalize ch.guard % ro.g.regionQRandom = i at hlt
    have hdel : ∀ (qq : Nat → Nat × Nat) (qi : Nat) (own : Nat → Owner), (∀ pg, inPages e.1 e.2 pg → own pg = .qr i) →
        ∀ pg, inPages e.1 e.2 pg → ro.g.regionDelay ≤ pageDelay ro.g (w.setQuar (setAt w.σ.qr i e) qq qi own 1) pg := by
      intro qq qi own ho pg hx
      have ho' : (w.setQuar (setAt w.σ.qr i e) qq qi own 1).G.own pg = .qr i := ho pg hx
      rw [pageDelay_qr ho']
      unfold Cfg.regionDelay; rw [if_neg h1]
    by_cases h3 : (w.σ.qr i).1 = 0
    · rw [if_pos h3]
      have s := quarStep_rand (e := e) (n := 1) hi hlt he hh hpr (Or.inl h3)
      refine ⟨_, ⟨s.trans hro hi, s.counted⟩, fun w2 hr => ⟨rfl, QuarPost.of hro hi s ?_ (hdel _ _ _ ?_) hr⟩⟩
      · intro e' h; simp at h
      · intro pg hx; unfold ownRand; rw [if_pos hx]
    · rw [if_neg h3]
      unfold pushRegionQueue
      by_cases h2 : ro.g.regionQQueue = 0
      · rw [if_pos h2]
        simp only
        rw [if_neg h3]
        have s := quarStep_rand (e := e) (n := 1) hi hlt he hh hpr (Or.inr (by omega))
        refine ⟨_, ⟨s.trans hro hi, s.counted⟩, fun w2 hr => ⟨trivial, QuarPost.of hro hi s ?_ (hdel _ _ _ ?_) hr⟩⟩
        · rintro _ ⟨⟩
          refine ⟨hi.qrOk _ hlt h3, fun pg hx => ?_⟩
          have ho := (hi.qrOwn pg i).mpr ⟨hlt, h3, hx⟩
          unfold ownRand
          rw [if_neg fun k => by rw [hh pg k] at ho; exact absurd ho (by simp), if_pos ho]
        · intro pg hx; unfold ownRand; rw [if_pos hx]
      · rw [if_neg h2]
        have s := quarStep_both (e := e) hi hlt h2 he h3 hh hpr
        have hq := hi.qi h2
        refine ⟨_, ⟨s.trans hro hi, s.counted⟩, fun w2 hr => ⟨rfl, QuarPost.of hro hi s ?_ (hdel _ _ _ ?_) hr⟩⟩
        · intro e' h
          by_cases h4 : (w.σ.qq w.σ.qi).1 = 0
          · simp only [h4, if_true] at h; simp at h
          · simp only [h4, if_false, Option.some.injEq] at h
            subst h
            refine ⟨hi.qqOk _ hq h4, fun pg hx => ?_⟩
            have ho := (hi.qqOwn pg w.σ.qi).mpr ⟨hq, h4, hx⟩
            unfold ownBoth
            rw [if_neg fun k => by rw [hh pg k] at ho; exact absurd ho (by simp), if_neg (by rw [ho]; simp), if_pos ho]
        · intro pg hx; unfold ownBoth; rw [if_pos hx]

/-- The result of giving up the pages of a region. -/
structure GoneQ (m : Mode) (ro : Ro) (t p size guard : Nat) (w w' : World) : Prop where
  at_ : At m ro t noBlock noFree (1, 0) w w'
  delay : m = .seq → ro.g.regionQuarantine = true → size < ro.g.regionQSkip →
    ∀ pg, inPages (p - guard) (size + guard * 2) pg → ro.g.regionDelay ≤ pageDelay ro.g w' pg
  wait : ro.g.regionQuarantine = true → size < ro.g.regionQSkip →
    ∀ pg, inPages (p - guard) (size + guard * 2) pg → ro.g.regionDelay + w.G.pushes + 1 ≤ pageDelay ro.g w' pg + w'.G.pushes
  gone : m = .seq → w.G.calm = true → ∀ pg, inPages p size pg → w'.σ.vm.prot pg ≠ .rw

/-- h_malloc.c:973-1015. -/
theorem quarantineDeallocatePages_wp {p size guard : Nat} {tl : Tl} {w : World} (hro : RoOk ro) (hF : FSys F) (hi : GInv ro w)
    (hu : Unsealed ro tl) (hp : p % PAGE = 0) (hg : guard % PAGE = 0) (hle : guard + PAGE ≤ p) (hs : 0 < size)
    (hh : Held t (inPages (p - guard) (size + guard * 2)) w)
    (hgd : ∀ pg, inPages (p - guard) (size + guard * 2) pg → ¬ inPages p size pg → w.σ.vm.prot pg ≠ .rw) :
    WP m ro t F (quarantineDeallocatePages ro p size guard) (fun _ tl' w' => tl'.unsealed = tl.unsealed ∧ GoneQ m ro t p size guard w w') tl w := by
  unfold quarantineDeallocatePages
  by_cases hc : (!ro.g.regionQuarantine || decide (ro.g.regionQSkip ≤ size)) = true
  · rw [if_pos hc]
    refine (deallocatePages_wp hro hF hi hp hg (by omega) hs hh).mono fun _ tl' w' h => ⟨h.2.1.sealed, ?_, ?_, ?_, ?_⟩
    · exact h.1.mono (fun _ h => h) (fun _ _ => Nat.le_refl _) (by constructor <;> simp)
    · intro _ h1 h2
      rw [h1] at hc
      simp only [Bool.not_true, Bool.false_or, decide_eq_true_eq] at hc
      omega
    · intro h1 h2
      rw [h1] at hc
      simp only [Bool.not_true, Bool.false_or, decide_eq_true_eq] at hc
      omega
    · intro hm hc pg hx
      rw [h.2.2.2 hm hc pg (by unfold inPages at *; omega)]; simp
  · rw [if_neg hc]
    have hh' : Held t (inPages p size) w := fun pg hx => hh pg (by unfold inPages at *; omega)
    have main : ∀ tl1 w1, tl1.unsealed = tl.unsealed → Idle m ro t w w1 → Held t (inPages (p - guard) (size + guard * 2)) w1 →
        (w.G.calm = true → ∀ pg, inPages (p - guard) (size + guard * 2) pg → w1.σ.vm.prot pg ≠ .rw) →
        WP m ro t F (do
          match ← quarantineRegion ro (p - guard, size + guard * 2) with
          | none => return ()
          | some t => do
              let _ ← sysUnmap t.1 t.2
              return ()) (fun _ tl' w' => tl'.unsealed = tl.unsealed ∧ GoneQ m ro t p size guard w w') tl1 w1 := by
      intro tl1 w1 hs1 a1 hh1 hg2
      have hg1 : m = .seq → w.G.calm = true → ∀ pg, inPages p size pg → w1.σ.vm.prot pg ≠ .rw :=
        fun _ hc pg hx => hg2 hc pg (by unfold inPages at *; omega)
      have he : QEntryOk (p - guard, size + guard * 2) :=
        ⟨by show (p - guard) % PAGE = 0; omega, by show PAGE ≤ p - guard; omega, by show 0 < size + guard * 2; omega⟩
      refine WP.andThen ((quarantineRegion_wp hro a1.inv (fun e => hs1.trans (hu e)) he hh1 (by rw [a1.calm]; exact hg2)).mono fun r tl2 w2 h => ?_)
      obtain ⟨rfl, q⟩ := h
      have hw : ∀ w3, Delay ro w2 w3 → ro.g.regionQuarantine = true → size < ro.g.regionQSkip →
          ∀ pg, inPages (p - guard) (size + guard * 2) pg → ro.g.regionDelay + w.G.pushes + 1 ≤ pageDelay ro.g w3 pg + w3.G.pushes :=
        fun w3 d h1 _ pg hx => by
          have h2 := q.wait h1 pg hx
          have h3 := d.page pg
          have h4 := d.pushes
          have h5 := a1.later.pushes
          omega
      have a2 : At m ro t noBlock noFree (1, 0) w w2 :=
        (a1.trans q.at_).mono (fun _ h => h.elim id id) (fun _ _ => Nat.le_refl _) (by simp)
      cases r with
      | none => exact WP.pure ⟨hs1, a2, fun hm _ _ => q.delay hm, hw _ (Delay.refl _), fun hm => by rw [q.vm hm]; exact hg1 hm⟩
      | some e =>
        obtain ⟨o1, o2⟩ := q.out e rfl
        refine WP.andThen (WP.sysUnmap hro hF q.at_.inv o1.mod o1.size o2.heldN (fun hca w3 hr => ?_) (fun w3 hr => ?_))
        · exact WP.pure ⟨hs1, a2.rely hr, fun hm _ _ => by rw [hr.seq hm]; exact q.delay hm, hw _ (hr.trans' q.at_.inv).delay, fun hm => by rw [hr.seq hm, q.vm hm]; exact hg1 hm⟩
        · refine WP.pure ⟨hs1, (a2.trans ((unmap_at hro q.at_.inv o2.heldN).rely hr)).mono (fun _ h => h.elim id id)
            (fun _ _ => Nat.le_refl _) (by simp), fun hm _ _ pg hx => ?_,
            hw _ ((unmap_guar hro q.at_.inv o2.heldN).delay.trans (hr.trans' (unmap_guar hro q.at_.inv o2.heldN).inv).delay), fun hm hc pg hx => ?_⟩
          · rw [hr.seq hm]
            have h1 := q.delay hm pg hx
            have h2 := (unmap_guar hro q.at_.inv o2.heldN).delay.page pg
            have h3 : (w2.unmap e.1 e.2).G.pushes = w2.G.pushes := rfl
            omega
          · rw [hr.seq hm]
            show (if inPages e.1 e.2 pg then _ else _) ≠ _
            by_cases k : inPages e.1 e.2 pg
            · rw [if_pos k]; simp
            · rw [if_neg k, q.vm hm]; exact hg1 hm hc pg hx
    refine WP.andThen (WP.sysMapFixed hro hF hi hp hs hh' (fun hca w2 hr => ?_) (fun w2 e hr => ?_))
    · rw [if_pos rfl]
      have hi2 := hr.inv hi
      have hh2 : Held t (inPages p size) w2 := hh'.rely hi hr
      refine WP.andThen (WP.andThen ((sysPurge_wp hro hF hi2 hp hh2).mono fun _ tl' w' h => WP.pure ?_))
      obtain ⟨k1, k2, _, k3⟩ := h
      refine main tl' w' k2.sealed ((Idle.ofRely hi hr).trans0 k1) ?_ (fun hc => (hca hc).elim)
      intro pg hx
      have := hh.rely hi hr pg hx
      rcases k3 with k3 | k3
      · exact (k3.pages pg).mpr this
      · exact (k3.pages pg).mpr this
    · rw [if_neg (by simp)]
      have s := mapFixed_step hi hh'
      refine main _ w2 rfl ((vmStep_at hro hi s).rely hr) ?_ ?_
      · exact Held.rely (hi.vmStep hro s) hr hh
      · intro _ pg hx
        rw [(hr.sameP (hi.vmStep hro s)).prot pg (hh pg hx)]
        show (if inPages p size pg then _ else _) ≠ _
        by_cases k : inPages p size pg
        · rw [if_pos k]; simp
        · rw [if_neg k]; exact hgd pg hx k

end HM
