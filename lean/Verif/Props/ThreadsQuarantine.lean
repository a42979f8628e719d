import Verif.ConcCount
import Verif.Props.ThreadsLayout
import Verif.Props.Quarantine
import Verif.Props.Sizes
/-
C56: how long freed memory is held back while the calls of several threads are interleaved (C20 and C21 say the same of
applications that make one call at a time). The deallocations that count are those of calls that were in progress when the
block was freed and of calls that have begun since then.
-/
namespace HM

variable {g : Cfg} {ro : Ro} {ar : Nat → Nat} {calm : Bool} {h h0 : List CEv} {s s0 : CSys}

/-! ## What counts -/

/-- The call frees or reallocates a block in the area of class `c` of arena `a`. -/
def Call.frees (ro : Ro) (a c : Nat) : Call → Bool
  | .free q | .freeSized q _ | .realloc q _ => decide (ro.regionStart a c ≤ q) && decide (q < ro.regionStart a c + ro.g.classRegionSize)
  | _ => false

/-- The call frees or reallocates a block outside of the region of the small blocks. -/
def Call.large (ro : Ro) : Call → Bool
  | .free q | .freeSized q _ | .realloc q _ => decide (q ≠ 0) && !(decide (ro.slabStart ≤ q) && decide (q < ro.slabEnd))
  | _ => false

/-- The event is the beginning of such a call. -/
def CEv.begins (f : Call → Bool) : CEv → Bool
  | .inv _ c _ => f c
  | _ => false

/-- The calls of this kind that were in progress at the end of the history `h0` or began during `evs`. -/
def meanwhile (f : Call → Bool) (evs h0 : List CEv) : Nat := (busy h0).countP (fun x => f x.2) + evs.countP (CEv.begins f)

/-- What the call of thread `t` in progress returned, if it returned during `evs` (latest event first). -/
def answer (t : Nat) : List CEv → Option Ret
  | [] => none
  | .ret u _ x :: evs => if u = t then some ((answer t evs).getD x) else answer t evs
  | _ :: evs => answer t evs

/-! ## Proofs: the counters -/

theorem cost_frees (a c : Nat) (d : Call) : d.cost (freesIn ro · a c) ro ≤ if d.frees ro a c = true then 1 else 0 := by
  have key : ∀ q, (if q = 0 then 0 else if ro.inSlab q = true then freesIn ro (some (.cls (ro.sizeClassOf q).1 (ro.sizeClassOf q).2 (some q))) a c
      else max (freesIn ro (some (.cls (ro.sizeClassOf q).1 (ro.sizeClassOf q).2 (some q))) a c) (freesIn ro (some (.regions true false)) a c)) ≤
      if (decide (ro.regionStart a c ≤ q) && decide (q < ro.regionStart a c + ro.g.classRegionSize)) = true then 1 else 0 := by
    intro q
    have h1 : freesIn ro (some (.cls (ro.sizeClassOf q).1 (ro.sizeClassOf q).2 (some q))) a c ≤
        if (decide (ro.regionStart a c ≤ q) && decide (q < ro.regionStart a c + ro.g.classRegionSize)) = true then 1 else 0 := by
      unfold freesIn
      simp only [Bool.and_eq_true, decide_eq_true_eq]
      split
      · rename_i k; rw [if_pos k.2.2]
      · exact Nat.zero_le _
    have h2 : freesIn ro (some (.regions true false)) a c = 0 := rfl
    split
    · exact Nat.zero_le _
    · split
      · exact h1
      · rw [h2]; exact max_le h1 (Nat.zero_le _)
  cases d <;> first | exact key _ | exact Nat.zero_le _

theorem cost_quar (d : Call) : d.cost quarIn ro ≤ if d.large ro = true then 1 else 0 := by
  have key : ∀ q, (if q = 0 then 0 else if ro.inSlab q = true then quarIn (some (.cls (ro.sizeClassOf q).1 (ro.sizeClassOf q).2 (some q)))
      else max (quarIn (some (.cls (ro.sizeClassOf q).1 (ro.sizeClassOf q).2 (some q)))) (quarIn (some (.regions true false)))) ≤
      if (decide (q ≠ 0) && !(decide (ro.slabStart ≤ q) && decide (q < ro.slabEnd))) = true then 1 else 0 := by
    intro q
    by_cases h0 : q = 0
    · rw [if_pos h0]; exact Nat.zero_le _
    · rw [if_neg h0]
      have e : (decide (ro.slabStart ≤ q) && decide (q < ro.slabEnd)) = ro.inSlab q := Bool.and_comm _ _
      rw [e]
      cases ro.inSlab q
      · simp [h0, quarIn]
      · exact Nat.zero_le _
  cases d <;> first | exact key _ | exact Nat.zero_le _

theorem begun_le {f : Call → Nat} {k : Call → Bool} (hf : ∀ d, f d ≤ if k d = true then 1 else 0) (evs h0 : List CEv) :
    begun f (evs ++ h0) ≤ evs.countP (CEv.begins k) + begun f h0 := by
  induction evs with
  | nil => simp
  | cons e evs ih =>
    rw [List.countP_cons, List.cons_append]
    cases e with
    | inv t c b =>
      have := hf c
      have e : CEv.begins k (.inv t c b) = k c := rfl
      rw [e]
      simp only [begun]
      omega
    | _ => simp only [begun] at *; omega

theorem busy_le {f : Call → Nat} {k : Call → Bool} (hf : ∀ d, f d ≤ if k d = true then 1 else 0) (L : List (Nat × Call)) :
    (L.map fun x => f x.2).sum ≤ L.countP (fun x => k x.2) := by
  induction L with
  | nil => simp
  | cons x L ih =>
    have := hf x.2
    rw [List.countP_cons, List.map_cons, List.sum_cons]
    omega

theorem answer_append {t : Nat} {x : Ret} {evs : List CEv} (pre : List CEv) (h : answer t evs = some x) : answer t (pre ++ evs) = some x := by
  induction pre with
  | nil => exact h
  | cons e pre ih =>
    cases e with
    | ret u c y =>
      show (if u = t then some ((answer t (pre ++ evs)).getD y) else answer t (pre ++ evs)) = _
      rw [ih]; simp
    | _ => exact ih

/-! ## Proofs: small blocks -/

/-- A block in the area of a class is a slot of this class. -/
theorem GInv.small_of_area {w : World} (hro : RoOk ro) (hi : GInv ro w) {p a c : Nat} (ha : a < ro.g.nArena) (hc : c < nClasses ro.g) (hp : ro.area a c p)
    (hb : w.G.blk p ≠ .nobody) : ∃ i k, IsSmall ro w.σ p a c i k := by
  rcases (hi.blk p).mp hb with ⟨a', c', i, k, h1⟩ | ⟨_, _, h1⟩
  · have e1 := h1.cls hro hi
    rw [hro.sizeClassOf ha hc (hro.region_cell ha hc hp)] at e1
    cases e1
    exact ⟨i, k, h1⟩
  · have e1 := has_not_inSlab hro hi h1
    rw [hro.cell_slab ha hc (hro.region_cell ha hc hp)] at e1
    cases e1

/-- What is known of a small block that thread `t` has begun to free: it is still to be freed, it was lost when the process
forked, or it has been quarantined. -/
theorem Path.slot (hro : RoOk ro) {h1 : List CEv} {s1 : CSys} {n1 n : Nat → Nat} {w1 w : World} (P : Path ro ar calm h1 s1 n1 w1 h s n w) {t p a c i k : Nat} {d : Call}
    (ha : a < ro.g.nArena) (hc : c < nClasses ro.g) (hp : ro.area a c p) (hp0 : p ≠ 0) (hr1 : ∃ Q, s1.run t = some (d, Q)) (hb1 : w1.G.blk p = .thr (t + 1))
    (hs1 : IsSmall ro w1.σ p a c i k) (i1 : GInv ro w1) :
    ∃ evs, h = evs ++ h1 ∧ (w1.G.frees a c ≤ w.G.frees a c ∧ ((∀ x, answer t evs = some x → d.gone x p) →
      (w.G.blk p = .thr (t + 1) ∧ (∃ Q, s.run t = some (d, Q)) ∧ answer t evs = none) ∨ w.G.blk p = .thr 0 ∨
      ro.g.slotWait c + w1.G.frees a c + 1 ≤ slotDelay ro.g c (w.σ.sc a c) (w.G.ql a c) i k + w.G.frees a c)) := by
  have small : ∀ {w : World}, GInv ro w → w.G.blk p ≠ .nobody → IsSmall ro w.σ p a c i k := by
    intro w hi hb
    obtain ⟨i', k', h2⟩ := hi.small_of_area hro ha hc hp hb
    obtain ⟨rfl, rfl⟩ := slotAddr_inj hc (h2.lt hi).2.1 (hs1.lt i1).2.1 (h2.2.2.1.symm.trans hs1.2.2.1)
    exact h2
  induction P with
  | refl => exact ⟨[], rfl, Nat.le_refl _, fun _ => .inl ⟨hb1, hr1, rfl⟩⟩
  | @tail h h' s s' n n' w w' P st i0 i' ch ih =>
    obtain ⟨evs, rfl, hm, ih⟩ := ih
    have later : Delay ro w w' → ro.g.slotWait c + w1.G.frees a c + 1 ≤ slotDelay ro.g c (w.σ.sc a c) (w.G.ql a c) i k + w.G.frees a c →
        ro.g.slotWait c + w1.G.frees a c + 1 ≤ slotDelay ro.g c (w'.σ.sc a c) (w'.G.ql a c) i k + w'.G.frees a c := by
      intro dl hq
      have k1 := dl.slot a c ha hc i k
      have k2 := dl.frees a c
      omega
    cases ch with
    | @act u c' β l f k' b hcu hd eh en er es =>
      subst eh
      have dl := hd.delay
      refine ⟨evs, rfl, hm.trans (dl.frees a c), fun hA => ?_⟩
      rcases ih hA with ⟨q1, ⟨Q, q2⟩, q3⟩ | q | q
      · have hrun : ∃ Q, s'.run t = some (d, Q) := by
          rw [er]
          by_cases e : t = u
          · subst e
            rw [q2] at hcu; cases hcu
            exact ⟨_, if_pos rfl⟩
          · exact ⟨Q, (if_neg e).trans q2⟩
        rcases hd.slot p a c i k (small i0.inv (by rw [q1]; simp)) with e | e
        · exact .inl ⟨e.trans q1, hrun, q3⟩
        · exact .inr (.inr (by omega))
      · exact .inr (.inl (((hd.same (.thr 0) (by simp) (by simp)).blk p).mpr q))
      · exact .inr (.inr (later dl q))
    | @inv u c' b hi hl eh en er es ew =>
      subst eh
      refine ⟨.inv u c' b :: evs, rfl, ?_⟩
      have ha : answer t (.inv u c' b :: evs) = answer t evs := rfl
      rw [ha]
      have eb : w.G.blk p ≠ .app → w'.G.blk p = w.G.blk p := by
        intro hne
        rcases ew with ⟨rfl, _⟩ | ⟨rfl, e⟩
        · rfl
        · refine give_other _ _ ?_
          rintro rfl
          exact hne ((i0.app _).mpr e)
      have ef : w'.G.frees = w.G.frees ∧ w'.G.ql = w.G.ql ∧ w'.σ = w.σ := by rcases ew with ⟨rfl, _⟩ | ⟨rfl, e⟩ <;> exact ⟨rfl, rfl, rfl⟩
      rw [ef.1, ef.2.1, ef.2.2]
      refine ⟨hm, fun hA => ?_⟩
      rcases ih hA with ⟨q1, ⟨Q, q2⟩, q3⟩ | q | q
      · refine .inl ⟨(eb (by rw [q1]; simp)).trans q1, ⟨Q, ?_⟩, q3⟩
        rw [er]
        refine (if_neg ?_).trans q2
        rintro rfl
        rw [hi] at q2; cases q2
      · exact .inr (.inl ((eb (by rw [q]; simp)).trans q))
      · exact .inr (.inr q)
    | @ret u c' x hcu eh en er es ew =>
      subst eh
      refine ⟨.ret u c' x :: evs, rfl, ?_⟩
      have ef : w'.G.frees = w.G.frees ∧ w'.G.ql = w.G.ql ∧ w'.σ = w.σ := by rcases ew with rfl | ⟨_, _, _, rfl⟩ <;> exact ⟨rfl, rfl, rfl⟩
      rw [ef.1, ef.2.1, ef.2.2]
      refine ⟨hm, fun hA => ?_⟩
      have hA' : ∀ x, answer t evs = some x → d.gone x p := fun y hy => hA y (answer_append [_] hy)
      rcases ih hA' with ⟨q1, ⟨Q, q2⟩, q3⟩ | q | q
      · by_cases e : u = t
        · subst e
          exfalso
          rw [q2] at hcu; cases hcu
          have h2 : d.gone x p := hA x (by
            show (if u = u then some ((answer u evs).getD x) else _) = _
            rw [if_pos rfl, q3]; rfl)
          exact (i0.done q2).2.left.gone p hp0 h2 q1
        · refine .inl ⟨?_, ⟨Q, ?_⟩, ?_⟩
          · rcases ew with rfl | ⟨q', h2, _, rfl⟩
            · exact q1
            · refine (give_other _ _ ?_).trans q1
              rintro rfl
              rw [q1] at h2
              simp only [Holder.thr.injEq] at h2
              omega
          · rw [er]; exact (if_neg (Ne.symm e)).trans q2
          · exact (if_neg e).trans q3
      · refine .inr (.inl ?_)
        rcases ew with rfl | ⟨q', h2, _, rfl⟩
        · exact q
        · refine (give_other _ _ ?_).trans q
          rintro rfl
          rw [q] at h2
          simp at h2
      · exact .inr (.inr q)
    | @fork u hi eh en er es ew =>
      subst eh ew
      refine ⟨.fork u :: evs, rfl, hm, fun hA => ?_⟩
      rcases ih hA with ⟨q1, _, _⟩ | q | q
      · exact .inr (.inl (lost_thr w q1))
      · exact .inr (.inl (lost_thr w q))
      · exact .inr (.inr q)
    | @out e eh he en er es hd eb ef ep =>
      subst eh
      have ha : answer t (e :: evs) = answer t evs := by rcases he with ⟨_, _, rfl⟩ | ⟨_, _, rfl⟩ | ⟨_, _, rfl⟩ <;> rfl
      refine ⟨e :: evs, rfl, hm.trans (hd.frees a c), ?_⟩
      rw [ha, eb, er]
      exact fun hA => (ih hA).imp_right fun q => q.imp_right (later hd)

/-- The call of thread `t` in progress gives up block `p`; a `realloc` does so if it returned another block during `evs`. -/
def GivesUp (t p : Nat) (evs : List CEv) : Call → Prop
  | .free q => q = p
  | .freeSized q _ => q = p
  | .realloc q _ => q = p ∧ ∃ x y, answer t evs = some x ∧ x.block = some y ∧ y ≠ p
  | _ => False

/-- The worlds before and after the beginning of a call, and now. -/
structure Since (ro : Ro) (ar : Nat → Nat) (calm : Bool) (t : Nat) (d : Call) (p : Nat) (h0 evs : List CEv) (s0 s1 s : CSys) (n0 n1 n : Nat → Nat) (w0 w1 w : World) : Prop where
  i0 : CInv ro calm n0 h0 s0 w0
  i1 : CInv ro calm n1 (.inv t d p :: h0) s1 w1
  i2 : CInv ro calm n (evs ++ .inv t d p :: h0) s w
  p1 : Path ro ar calm h0 s0 n0 w0 (.inv t d p :: h0) s1 n1 w1
  p2 : Path ro ar calm (.inv t d p :: h0) s1 n1 w1 (evs ++ .inv t d p :: h0) s n w
  run : s1.run t = some (d, d.prog ro (ar t))
  start : s1.start t = s0.σ
  pushes : n1 t = w0.G.pushes
  lent : ((hold h0).live p).isSome = true → w1 = w0.give p (.thr (t + 1))

theorem CSteps.since (hg : Good g ar) {evs : List CEv} {t p : Nat} {d : Call} {s1 : CSys} (r : CReach g ro ar calm h0 s0)
    (st : CStep ro ar calm h0 s0 (.inv t d p :: h0) s1) (sts : CSteps ro ar calm (.inv t d p :: h0) s1 (evs ++ .inv t d p :: h0) s) :
    ∃ n0 n1 n w0 w1 w, Since ro ar calm t d p h0 evs s0 s1 s n0 n1 n w0 w1 w := by
  obtain ⟨hro, eg⟩ := r.roOk hg
  obtain ⟨w0, n0, I0⟩ := r.inv hg
  obtain ⟨n1, w1, I1, c1⟩ := I0.step hg hro eg st
  obtain ⟨n2, w2, I2, P2⟩ := sts.path hg hro eg I1
  suffices k : s1.run t = some (d, d.prog ro (ar t)) ∧ s1.start t = s0.σ ∧ n1 t = w0.G.pushes ∧ (((hold h0).live p).isSome = true → w1 = w0.give p (.thr (t + 1))) from
    ⟨n0, n1, n2, w0, w1, w2, I0, I1, I2, .tail .refl st I0 I1 c1, P2, k.1, k.2.1, k.2.2.1, k.2.2.2⟩
  cases c1 with
  | act hc hd eh en er es => exact absurd (congrArg List.length eh) (by simp)
  | inv hi hl eh en er es ew =>
    cases eh
    refine ⟨by rw [er]; exact if_pos rfl, by rw [es]; exact if_pos rfl, by rw [en]; exact if_pos rfl, fun k => ?_⟩
    rcases ew with ⟨_, e⟩ | ⟨e, _⟩
    · rw [e] at k; cases k
    · exact e
  | ret hc eh en er es ew => cases eh
  | fork hi eh en er es ew => cases eh
  | out eh he en er es hd eb ef ep =>
    rcases he with ⟨_, _, rfl⟩ | ⟨_, _, rfl⟩ | ⟨_, _, rfl⟩ <;> cases eh

theorem CReach.since {evs : List CEv} {e : CEv} (r : CReach g ro ar calm (evs ++ e :: h0) s) :
    ∃ s0 s1, CReach g ro ar calm h0 s0 ∧ CStep ro ar calm h0 s0 (e :: h0) s1 ∧ CSteps ro ar calm (e :: h0) s1 (evs ++ e :: h0) s := by
  obtain ⟨sI, rI, stI⟩ := r.start
  obtain ⟨sa, sb, st1, st2, st3⟩ := stI.split rfl (Nat.zero_le _)
  exact ⟨sa, sb, rI.steps st1, st2, st3⟩

/-- A counter since before the call began. -/
theorem Since.count (hro : RoOk ro) {t p : Nat} {d : Call} {evs : List CEv} {s1 : CSys} {n0 n1 n : Nat → Nat} {w0 w1 w : World}
    (S : Since ro ar calm t d p h0 evs s0 s1 s n0 n1 n w0 w1 w) (r0 : CReach g ro ar calm h0 s0) {κ : Option Sect → Nat} {ctr : World → Nat} (M : Meter ro κ ctr)
    {k : Call → Bool} (hk : ∀ d : Call, d.cost κ ro ≤ if k d = true then 1 else 0) : ctr w ≤ ctr w0 + meanwhile k evs h0 + 1 := by
  have cnt := (S.p1.trans S.p2).count hro M r0
  have b1 := begun_le hk (evs ++ [.inv t d p]) h0
  have b2 := busy_le hk (busy h0)
  have b3 : (evs ++ [CEv.inv t d p]).countP (CEv.begins k) ≤ evs.countP (CEv.begins k) + 1 := by
    rw [List.countP_append]
    have := List.countP_le_length (p := CEv.begins k) (l := [CEv.inv t d p])
    simp only [List.length_singleton] at this
    omega
  rw [List.append_assoc, List.singleton_append] at b1
  unfold meanwhile
  omega

theorem CReach.delay (hg : Good g ar) {evs : List CEv} {t p a c : Nat} {d : Call} (r : CReach g ro ar calm (evs ++ .inv t d p :: h0) s)
    (ha : a < g.nArena) (hc : c < nClasses g) (hgu : GivesUp t p evs d) (hp : ro.area a c p) (hl0 : ((hold h0).live p).isSome)
    (hl : ((hold (evs ++ .inv t d p :: h0)).live p).isSome) :
    g.queueLength c + (if g.slabQRandom = 0 then 0 else 1) ≤ meanwhile (Call.frees ro a c) evs h0 := by
  obtain ⟨hro, rfl⟩ := r.roOk hg
  obtain ⟨s0, s1, r0, st, sts⟩ := r.since
  obtain ⟨n0, n1, n2, w0, w1, w2, S⟩ := sts.since hg r0 st
  obtain ⟨I0, I1, I2, P1, P2, hrun, _, _, hw⟩ := id S
  obtain rfl := hw hl0
  have cnt := S.count hro r0 (meter_frees (ro := ro) a c) (cost_frees a c)
  have hb0 := (I0.app p).mpr hl0
  have hp0 : p ≠ 0 := by rintro rfl; rw [blk_zero hro I0.inv] at hb0; cases hb0
  obtain ⟨i, k, hs0⟩ := I0.inv.small_of_area hro ha hc hp (by rw [hb0]; simp)
  obtain ⟨evs', e, _, q⟩ := P2.slot (i := i) (k := k) hro ha hc hp hp0 ⟨_, hrun⟩ (give_self _ _ _) hs0 I1.inv
  obtain rfl := List.append_cancel_right e
  have hb2 := (I2.app p).mpr hl
  have hgone : ∀ x, answer t evs = some x → d.gone x p := by
    intro x hx
    cases d with
    | free => exact hgu
    | freeSized => exact hgu
    | realloc q n =>
      obtain ⟨e1, x', y, e2, e3, e4⟩ := hgu
      rw [hx] at e2; cases e2
      exact ⟨e1, y, e3, e4⟩
    | _ => cases hgu
  have hq : ro.g.slotWait c + w0.G.frees a c + 1 ≤ slotDelay ro.g c (w2.σ.sc a c) (w2.G.ql a c) i k + w2.G.frees a c := by
    rcases q hgone with ⟨q1, _⟩ | q1 | q1
    · rw [hb2] at q1; cases q1
    · rw [hb2] at q1; cases q1
    · exact q1
  have z : slotDelay ro.g c (w2.σ.sc a c) (w2.G.ql a c) i k = 0 := by
    obtain ⟨i', k', h2⟩ := I2.inv.small_of_area hro ha hc hp (by rw [hb2]; simp)
    obtain ⟨rfl, rfl⟩ := slotAddr_inj hc (h2.lt I2.inv).2.1 (hs0.lt I0.inv).2.1 (h2.2.2.1.symm.trans hs0.2.2.1)
    obtain ⟨P, E, F, I⟩ := I2.inv.cls a c ha hc
    have := h2.2.2.2
    unfold SC.live at this
    rw [Bool.and_eq_true, Bool.not_eq_true'] at this
    have hn : w2.G.ql a c i' k' = .none := by
      by_contra hn
      have := (I.qarr.bit i' k').mpr hn
      simp_all
    unfold slotDelay; rw [hn]
  have h5 : ro.g.slotWait c = ro.g.queueLength c + (if ro.g.slabQRandom = 0 then 0 else 1) := by
    unfold Cfg.slotWait
    rw [lenQ_eq hro.valid hc]
    split <;> rfl
  omega

/-! ## Proofs: large blocks -/

/-- The call of thread `t` in progress is still in progress after `evs`. -/
def Goes (t : Nat) (evs : List CEv) : Prop := ∀ e ∈ evs, (∀ c x, e ≠ .ret t c x) ∧ ∀ u, e ≠ .fork u

/-- What is known of a page of a large block that thread `t` frees. -/
theorem Path.quar {h1 : List CEv} {s1 : CSys} {n1 n : Nat → Nat} {w1 w : World} (P : Path ro ar calm h1 s1 n1 w1 h s n w) {t p u y : Nat} {d : Call} {j : Info}
    (hd : d.drops p) (hh : (hold h1).hand t = some (p, j)) (hs : ro.inSlab p = false) (hq : ro.g.regionQuarantine = true) (hu : Usable ro (s1.start t) p u)
    (hsk : u < ro.g.regionQSkip) (hy1 : p ≤ y + PAGE) (hy2 : y < p + u + PAGE) (hr1 : ∃ Q, s1.run t = some (d, Q)) :
    ∃ evs, h = evs ++ h1 ∧ (Goes t evs → (∃ Q, s.run t = some (d, Q)) ∧ n t = n1 t ∧ s.start t = s1.start t ∧ (hold h).hand t = (hold h1).hand t) ∧
      ∀ evs2 evs1 x, evs = evs2 ++ .ret t d x :: evs1 → Goes t evs1 → ro.g.regionDelay + n1 t + 1 ≤ pageDelay ro.g w (y / PAGE) + w.G.pushes := by
  have goes : ∀ {e : CEv} {evs : List CEv}, Goes t (e :: evs) → Goes t evs := fun h e he => h e (List.mem_cons_of_mem _ he)
  have page : ∀ {w w' : World}, Delay ro w w' → ∀ {X}, X ≤ pageDelay ro.g w (y / PAGE) + w.G.pushes → X ≤ pageDelay ro.g w' (y / PAGE) + w'.G.pushes := by
    intro w w' dl X hX
    have k1 := dl.page (y / PAGE)
    have k2 := dl.pushes
    omega
  induction P with
  | refl => exact ⟨[], rfl, fun _ => ⟨hr1, rfl, rfl, rfl⟩, fun evs2 evs1 x e => by cases evs2 <;> cases e⟩
  | @tail h h' s s' n n' w w' P st i0 i' ch ih =>
    obtain ⟨evs, rfl, ih1, ih2⟩ := ih
    have grow : ∀ {e : CEv}, (∀ c x, e ≠ .ret t c x) → (∀ {X}, X ≤ pageDelay ro.g w (y / PAGE) + w.G.pushes → X ≤ pageDelay ro.g w' (y / PAGE) + w'.G.pushes) →
        ∀ evs2 evs1 x, e :: evs = evs2 ++ .ret t d x :: evs1 → Goes t evs1 → ro.g.regionDelay + n1 t + 1 ≤ pageDelay ro.g w' (y / PAGE) + w'.G.pushes := by
      intro e he hX evs2 evs1 x e1 hG
      cases evs2 with
      | nil => cases e1; exact absurd rfl (he _ _)
      | cons e2 evs2 => cases e1; exact hX (ih2 _ _ _ rfl hG)
    cases ch with
    | @act u c' β l f k' b hcu hd' eh en er es =>
      subst eh
      refine ⟨evs, rfl, fun hG => ?_, fun evs2 evs1 x e hG => page hd'.delay (ih2 _ _ _ e hG)⟩
      obtain ⟨⟨Q, q1⟩, q2, q3, q4⟩ := ih1 hG
      refine ⟨?_, by rw [en]; exact q2, by rw [es]; exact q3, q4⟩
      rw [er]
      by_cases e : t = u
      · subst e
        rw [q1] at hcu; cases hcu
        exact ⟨_, if_pos rfl⟩
      · exact ⟨Q, (if_neg e).trans q1⟩
    | @inv u c' b hi hl eh en er es ew =>
      subst eh
      have ew : pageDelay ro.g w' (y / PAGE) = pageDelay ro.g w (y / PAGE) ∧ w'.G.pushes = w.G.pushes := by
        rcases ew with ⟨rfl, _⟩ | ⟨rfl, _⟩ <;> exact ⟨rfl, rfl⟩
      refine ⟨.inv u c' b :: evs, rfl, fun hG => ?_, grow (fun _ _ => nofun) fun hX => by rw [ew.1, ew.2]; exact hX⟩
      obtain ⟨⟨Q, q1⟩, q2, q3, q4⟩ := ih1 (goes hG)
      have hut : t ≠ u := by rintro rfl; rw [hi] at q1; cases q1
      refine ⟨⟨Q, ?_⟩, ?_, ?_, ?_⟩
      · rw [er]; exact (if_neg hut).trans q1
      · rw [en]; exact (if_neg hut).trans q2
      · rw [es]; exact (if_neg hut).trans q3
      · exact (if_neg hut).trans q4
    | @ret v c' x hcu eh en er es ew =>
      subst eh
      have ew : pageDelay ro.g w' (y / PAGE) = pageDelay ro.g w (y / PAGE) ∧ w'.G.pushes = w.G.pushes := by
        rcases ew with rfl | ⟨_, _, _, rfl⟩ <;> exact ⟨rfl, rfl⟩
      by_cases e : v = t
      · subst e
        refine ⟨.ret v c' x :: evs, rfl, fun hG => absurd rfl ((hG _ List.mem_cons_self).1 c' x), fun evs2 evs1 x' e1 hG => ?_⟩
        rw [ew.1, ew.2]
        cases evs2 with
        | nil =>
          cases e1
          obtain ⟨⟨Q, q1⟩, q2, q3, q4⟩ := ih1 hG
          have := (i0.done hcu).2.left.quar p j hd (q4.trans hh) hs hq u (q3 ▸ hu) hsk y hy1 hy2
          rw [q2] at this
          exact this
        | cons e2 evs2 => cases e1; exact ih2 _ _ _ rfl hG
      · refine ⟨.ret v c' x :: evs, rfl, fun hG => ?_, grow (fun _ _ k => e (by cases k; rfl)) fun hX => by rw [ew.1, ew.2]; exact hX⟩
        obtain ⟨⟨Q, q1⟩, q2, q3, q4⟩ := ih1 (goes hG)
        refine ⟨⟨Q, ?_⟩, by rw [en]; exact q2, by rw [es]; exact q3, (if_neg (Ne.symm e)).trans q4⟩
        rw [er]; exact (if_neg (Ne.symm e)).trans q1
    | @fork u hi eh en er es ew =>
      subst eh ew
      exact ⟨.fork u :: evs, rfl, fun hG => absurd rfl ((hG _ List.mem_cons_self).2 u), grow (fun _ _ => nofun) fun hX => hX⟩
    | @out e eh he en er es hd' eb ef ep =>
      subst eh
      refine ⟨e :: evs, rfl, fun hG => ?_, grow (fun _ _ k => by rcases he with ⟨_, _, rfl⟩ | ⟨_, _, rfl⟩ | ⟨_, _, rfl⟩ <;> cases k) fun hX => page hd' hX⟩
      obtain ⟨q1, q2, q3, q4⟩ := ih1 (goes hG)
      refine ⟨by rw [er]; exact q1, by rw [en]; exact q2, by rw [es]; exact q3, ?_⟩
      rcases he with ⟨_, _, rfl⟩ | ⟨_, _, rfl⟩ | ⟨_, _, rfl⟩ <;> exact q4

/-- The pages of a large block that was freed are in the quarantine. -/
theorem Since.held (hro : RoOk ro) {evs1 evs2 : List CEv} {t p u y : Nat} {d : Call} {x : Ret} {s1 : CSys} {n0 n1 n : Nat → Nat} {w0 w1 w : World}
    (S : Since ro ar calm t d p h0 (evs2 ++ .ret t d x :: evs1) s0 s1 s n0 n1 n w0 w1 w) (r0 : CReach g ro ar calm h0 s0)
    (hd : d.drops p) (hl : ((hold h0).live p).isSome) (hu : Usable ro s0.σ p u) (hlarge : ¬ (ro.slabStart ≤ p ∧ p < ro.slabEnd)) (hskip : u < ro.g.regionQSkip)
    (hgo : Goes t evs1)
    (hn : meanwhile (Call.large ro) (evs2 ++ .ret t d x :: evs1) h0 < ro.g.regionQQueue + (if ro.g.regionQRandom = 0 then 0 else 1))
    (h1 : p ≤ y + PAGE) (h2 : y < p + u + PAGE) : ∃ i, w.G.own (y / PAGE) = .qr i ∨ w.G.own (y / PAGE) = .qq i := by
  have hs : ro.inSlab p = false := by
    unfold Ro.inSlab
    rw [Bool.eq_false_iff]
    intro k; apply hlarge
    simpa [and_comm] using k
  have hrq : ro.g.regionQuarantine = true := by
    unfold Cfg.regionQuarantine
    by_contra k
    simp only [Bool.or_eq_true, decide_eq_true_eq, not_or, Nat.not_lt, Nat.le_zero] at k
    rw [if_pos k.1, k.2] at hn
    omega
  obtain ⟨j, hj⟩ := Option.isSome_iff_exists.mp hl
  have hh : (hold (.inv t d p :: h0)).hand t = some (p, j) := by
    show (if t = t then ((hold h0).live p).map (p, ·) else _) = _
    rw [if_pos rfl, hj]; rfl
  obtain ⟨evs, e, _, q⟩ := S.p2.quar (y := y) hd hh hs hrq (S.start ▸ hu) hskip h1 h2 ⟨_, S.run⟩
  obtain rfl := List.append_cancel_right e
  have q := q _ _ _ rfl hgo
  have cnt := S.count hro r0 (meter_pushes (ro := ro)) cost_quar
  have d5 : ro.g.regionDelay = ro.g.regionQQueue + (if ro.g.regionQRandom = 0 then 0 else 1) := by
    unfold Cfg.regionDelay; split <;> rfl
  rw [S.pushes] at q
  have : pageDelay ro.g w (y / PAGE) ≠ 0 := by omega
  unfold pageDelay at this
  cases e : w.G.own (y / PAGE) with
  | qr i => exact ⟨i, .inl rfl⟩
  | qq i => exact ⟨i, .inr rfl⟩
  | _ => rw [e] at this; exact absurd rfl this

/-- Quarantined memory is reserved, in no block of the application and, if the kernel never refuses, inaccessible. -/
theorem CInv.held {n : Nat → Nat} {w : World} (hro : RoOk ro) (I : CInv ro calm n h s w) {y i : Nat} (hq : w.G.own (y / PAGE) = .qr i ∨ w.G.own (y / PAGE) = .qq i) :
    s.σ.vm.prot (y / 4096) ≠ .unmapped ∧ (∀ q v, ((hold h).live q).isSome → Usable ro s.σ q v → ¬ (q ≤ y ∧ y < q + v + ro.g.canarySize)) ∧
      (calm = true → s.σ.vm.prot (y / 4096) ≠ .rw) := by
  refine ⟨?_, fun q v k1 k2 k3 => ?_, fun k1 => ?_⟩
  · rw [← I.σ]
    exact I.inv.mapped _ (by rcases hq with e | e <;> (rw [e]; simp))
  · rcases ((I.usable_iff hro k1).mp k2).extent_of I.inv (I.eff k1) k3.1 k3.2 with ⟨a', c', i', k', e1, e2⟩ | e1
    · have := e1.own hro I.inv e2
      rcases hq with e | e <;> (rw [e] at this; cases this)
    · rcases hq with e | e <;> (rw [e] at e1; cases e1)
  · rw [← I.σ]
    exact I.inv.qprot (by show w.G.env.1 = true; rw [I.env]; exact k1) _ i hq

/-! ## Proofs: histories without stores -/

theorem dropStores_append (a b : List CEv) : dropStores (a ++ b) = dropStores a ++ dropStores b := by
  induction a with
  | nil => rfl
  | cons e a ih => cases e <;> simp only [List.cons_append, dropStores, ih]

theorem mem_dropStores {e : CEv} {a : List CEv} (h : e ∈ dropStores a) : e ∈ a := by
  induction a with
  | nil => exact h
  | cons e' a ih =>
    cases e' with
    | store x v => exact List.mem_cons_of_mem _ (ih h)
    | _ =>
      rcases List.mem_cons.mp h with rfl | h
      · exact List.mem_cons_self
      · exact List.mem_cons_of_mem _ (ih h)

theorem answer_drop (t : Nat) (evs : List CEv) : answer t (dropStores evs) = answer t evs := by
  induction evs with
  | nil => rfl
  | cons e a ih => cases e <;> simp only [dropStores, answer, ih]

theorem busy_drop (h : List CEv) : busy (dropStores h) = busy h := by
  induction h with
  | nil => rfl
  | cons e a ih => cases e <;> simp only [dropStores, busy, ih]

theorem begins_drop (f : Call → Bool) (h : List CEv) : (dropStores h).countP (CEv.begins f) = h.countP (CEv.begins f) := by
  induction h with
  | nil => rfl
  | cons e a ih => cases e <;> simp only [dropStores, List.countP_cons, ih, CEv.begins] <;> simp

theorem meanwhile_drop (f : Call → Bool) (evs h0 : List CEv) : meanwhile f (dropStores evs) (dropStores h0) = meanwhile f evs h0 := by
  unfold meanwhile
  rw [busy_drop, begins_drop]

theorem GivesUp.drop (t p : Nat) (evs : List CEv) (d : Call) : GivesUp t p (dropStores evs) d ↔ GivesUp t p evs d := by
  cases d <;> simp only [GivesUp, answer_drop]

/-! ## C56 -/

/-- C56 (C20). A small block given to `free`, `free_sized`, or to a `realloc` that moved it, is not live again before the
number of calls that free or reallocate a block of the same arena and class, and were in progress at the time or have begun
since, has reached the length of the queue (plus one if the random quarantine is used as well). This holds at every moment,
however the calls are interleaved, even while the call is still in progress, and wherever the stores of the application
go. -/
theorem c56_small_delay_partial (hg : Good g ar) {evs : List CEv} {t p a c : Nat} {d : Call} (r : WReach g ro ar calm (evs ++ .inv t d p :: h0) s)
    (ha : a < g.nArena) (hc : c < nClasses g) (hgu : GivesUp t p evs d) (hp : ro.area a c p) (hl0 : ((hold h0).live p).isSome)
    (hl : ((hold (evs ++ .inv t d p :: h0)).live p).isSome) :
    g.queueLength c + (if g.slabQRandom = 0 then 0 else 1) ≤ meanwhile (Call.frees ro a c) evs h0 := by
  obtain ⟨⟨s', r', _⟩, _⟩ := r.shadow hg
  rw [dropStores_append] at r'
  have := r'.delay hg ha hc (p := p) (by rwa [GivesUp.drop]) hp (by rwa [hold_dropStores]) (by
    have e : dropStores evs ++ .inv t d p :: dropStores h0 = dropStores (evs ++ .inv t d p :: h0) := by rw [dropStores_append]; rfl
    rwa [e, hold_dropStores])
  rwa [meanwhile_drop] at this

/-- C56 (C21). A large block whose size is below the threshold of the quarantine stays reserved after the call that frees it
has returned, with a guard page on either side, and is part of no other block, as long as the number of calls that free or
reallocate a large block, and were in progress when the block was freed or have begun since, is below the length of the queue
(plus one if there is a random quarantine). If the kernel never refuses a request, its bytes are inaccessible all that
time. -/
theorem c56_large_reserved_partial (hg : Good g ar) (r : CReach g ro ar calm h0 s0) {t p u y : Nat} {d : Call} {x : Ret} {evs1 evs2 : List CEv} {s1 : CSys}
    (hd : d = .free p ∨ ∃ n, d = .freeSized p n) (hl : ((hold h0).live p).isSome) (hu : Usable ro s0.σ p u) (hlarge : ¬ (ro.slabStart ≤ p ∧ p < ro.slabEnd))
    (hskip : u < g.regionQSkip) (st : CStep ro ar calm h0 s0 (.inv t d p :: h0) s1)
    (sts : CSteps ro ar calm (.inv t d p :: h0) s1 (evs2 ++ .ret t d x :: evs1 ++ .inv t d p :: h0) s) (hgo : Goes t evs1)
    (hn : meanwhile (Call.large ro) (evs2 ++ .ret t d x :: evs1) h0 < g.regionQQueue + (if g.regionQRandom = 0 then 0 else 1))
    (h1 : p - 4096 ≤ y) (h2 : y < p + u + 4096) :
    s.σ.vm.prot (y / 4096) ≠ .unmapped ∧
      (∀ q v, ((hold (evs2 ++ .ret t d x :: evs1 ++ .inv t d p :: h0)).live q).isSome → Usable ro s.σ q v → ¬ (q ≤ y ∧ y < q + v + g.canarySize)) ∧
      (calm = true → s.σ.vm.prot (y / 4096) ≠ .rw) := by
  obtain ⟨hro, rfl⟩ := r.roOk hg
  obtain ⟨n0, n1, n, w0, w1, w, S⟩ := sts.since hg r st
  obtain ⟨i, hq⟩ := S.held hro r (by rcases hd with rfl | ⟨_, rfl⟩ <;> rfl) hl hu hlarge hskip hgo hn (y := y) (by omega) h2
  exact S.i2.held hro hq

/-- C56 (C21). The same of an application whose stores go anywhere, for blocks of a size that only large blocks have. -/
theorem c56_large_reserved_wild_partial (hg : Good g ar) {t p y : Nat} {i : Info} {d : Call} {x : Ret} {evs1 evs2 : List CEv}
    (r : WReach g ro ar calm (evs2 ++ .ret t d x :: evs1 ++ .inv t d p :: h0) s)
    (hd : d = .free p ∨ ∃ n, d = .freeSized p n) (hl : (hold h0).live p = some i) (hlarge : g.maxSlab < i.size)
    (hskip : g.mallocUsable i.size < g.regionQSkip) (hgo : Goes t evs1)
    (hn : meanwhile (Call.large ro) (evs2 ++ .ret t d x :: evs1) h0 < g.regionQQueue + (if g.regionQRandom = 0 then 0 else 1))
    (h1 : p - 4096 ≤ y) (h2 : y < p + g.mallocUsable i.size + 4096) :
    s.σ.vm.prot (y / 4096) ≠ .unmapped ∧
      (∀ q v, ((hold (evs2 ++ .ret t d x :: evs1 ++ .inv t d p :: h0)).live q).isSome → Usable ro s.σ q v → ¬ (q ≤ y ∧ y < q + v + g.canarySize)) ∧
      (calm = true → s.σ.vm.prot (y / 4096) ≠ .rw) := by
  obtain ⟨⟨s', r', Sh⟩, _⟩ := r.shadow hg
  obtain ⟨hro, rfl⟩ := r'.roOk hg
  have e : dropStores (evs2 ++ .ret t d x :: evs1 ++ .inv t d p :: h0) =
      dropStores evs2 ++ .ret t d x :: dropStores evs1 ++ .inv t d p :: dropStores h0 := by rw [dropStores_append, dropStores_append]; rfl
  have r2 := e ▸ r'
  obtain ⟨s0, s1, r0, st, sts⟩ := r2.since
  obtain ⟨n0, n1, n, w0, w1, w, S⟩ := sts.since hg r0 st
  have hl' : (hold (dropStores h0)).live p = some i := by rw [hold_dropStores]; exact hl
  have hls : ((hold (dropStores h0)).live p).isSome = true := by rw [hl']; rfl
  obtain ⟨v, k1, k2⟩ := (S.i0.sized p i hl').usable S.i0.inv
  have hv : v = ro.g.mallocUsable i.size ∧ ro.inSlab p = false := by
    have hadj : ro.g.maxSlab < adjustSizeForCanary ro.g i.size := by unfold adjustSizeForCanary; split <;> omega
    obtain ⟨_, sz⟩ := S.i0.sized p i hl'
    have sk : SizeKind ro w0 p (adjustSizeForCanary ro.g i.size) := by
      revert sz
      cases i.align with
      | none => exact id
      | some al =>
        rintro ⟨_, _, ⟨z, _, _, e1, _, e2⟩ | ⟨_, e1, _⟩⟩
        · rw [e1 hadj] at e2; exact e2
        · omega
    refine ⟨SizeKind.mallocUsable hro S.i0.inv sk k1, ?_⟩
    rcases sk with ⟨e1, _⟩ | ⟨_, gd, e1⟩
    · omega
    · exact has_not_inSlab hro S.i0.inv e1
  rw [← hv.1] at hskip h2
  have hu := (S.i0.usable_iff hro hls).mpr k1
  have hn' : meanwhile (Call.large ro) (dropStores evs2 ++ .ret t d x :: dropStores evs1) (dropStores h0) < ro.g.regionQQueue + (if ro.g.regionQRandom = 0 then 0 else 1) := by
    have e1 : dropStores evs2 ++ .ret t d x :: dropStores evs1 = dropStores (evs2 ++ .ret t d x :: evs1) := by rw [dropStores_append]; rfl
    rw [e1, meanwhile_drop]; exact hn
  obtain ⟨j, hq⟩ := S.held hro r0 (by rcases hd with rfl | ⟨_, rfl⟩ <;> rfl) hls hu
    (fun k => by have := hv.2; unfold Ro.inSlab at this; simp [k.1, k.2] at this) hskip (fun e he => hgo e (mem_dropStores he)) hn' (y := y) (by omega) h2
  obtain ⟨q1, q2, q3⟩ := S.i2.held hro hq
  rw [Sh.prot] at q1 q3
  refine ⟨q1, fun q v' e1 e2 => ?_, q3⟩
  rw [← hold_dropStores, e] at e1
  obtain ⟨j', e3⟩ := Option.isSome_iff_exists.mp e1
  exact q2 q v' e1 (Sh.usable hg r2 e3 e2)

/-! ### The hypotheses are met -/

theorem CSteps.acts {s' : CSys} {t n : Nat} {ch : Choice} (he : ∀ c, CEnv calm c ch) (e : s.acts t ch n = some s') : CSteps ro ar calm h s h s' := by
  induction n generalizing s with
  | zero => cases e; exact .refl
  | succ n ih =>
    unfold CSys.acts at e
    split at e
    · cases e; exact .refl
    · obtain ⟨s1, k1, k2⟩ := Option.bind_eq_some_iff.mp e
      refine CSteps.trans (.tail .refl ?_) (ih k2)
      unfold CSys.act at k1
      split at k1
      · rename_i c f k hr
        split at k1
        · rename_i σ' tl' b hf
          cases k1
          exact .step t hr (he _) hf
        · cases k1
      · cases k1

/-- The steps of an example. -/
theorem runC_steps {as : List ExC} {h' : List CEv} {s' : CSys} (e : runC ro ar as h s = some (h', s'))
    (ok : ∀ a ∈ as, ∃ t, (∃ c b, a = .inv t c b) ∨ (∃ n x, a = .go t n x) ∨ a = .ret t) : CSteps ro ar calm h s h' s' := by
  induction as generalizing h s with
  | nil => cases e; exact .refl
  | cons a as ih =>
    obtain ⟨⟨h1, s1⟩, k1, k2⟩ := Option.bind_eq_some_iff.mp e
    refine CSteps.trans ?_ (ih k2 fun a ha => ok a (List.mem_cons_of_mem _ ha))
    obtain ⟨t, ⟨c, b, rfl⟩ | ⟨n, x, rfl⟩ | rfl⟩ := ok a List.mem_cons_self
    · simp only [ExC.run] at k1
      split at k1
      · rename_i k
        simp only [Bool.and_eq_true, Option.isNone_iff_eq_none] at k
        cases k1
        exact .tail .refl (.invoke t c b k.1.1 (Call.okB_ok k.1.2) (lendsB_lends k.2))
      · cases k1
    · obtain ⟨s2, k3, k4⟩ := Option.map_eq_some_iff.mp k1
      cases k4
      exact .acts (exAt_cenv calm x) k3
    · simp only [ExC.run] at k1
      split at k1
      · rename_i c x k
        cases k1
        exact .tail .refl (.ret t k)
      · cases k1

/-- Thread 2 has begun to free a block when thread 0 frees block `exT`; thread 1 frees another one, and the block that was
freed first is handed out again: after as many calls as C56 demands, one of which had begun before the block was freed. In
between the application writes to the freed block. -/
example : ∃ evs h0 s, WReach tinyCfg tinyRo (fun _ => 0) true (evs ++ .inv 0 (.free exT) exT :: h0) s ∧ GivesUp 0 exT evs (.free exT) ∧ tinyRo.area 0 36 exT ∧
    ((hold h0).live exT).isSome ∧ ((hold (evs ++ .inv 0 (.free exT) exT :: h0)).live exT).isSome ∧ meanwhile (Call.frees tinyRo 0 36) evs h0 = 2 ∧
    evs.countP (CEv.begins (Call.frees tinyRo 0 36)) = 1 ∧ tinyCfg.queueLength 36 + 1 = 2 := by
  have key : ((runW tinyRo (fun _ => 0) [.inv 0 (.malloc 16376) 0, .go 0 99 0, .ret 0, .inv 1 (.malloc 16376) 0, .go 1 99 0, .ret 1, .inv 1 (.malloc 16376) 0, .go 1 99 0, .ret 1,
      .inv 2 (.free (exT + 16384)) (exT + 16384), .inv 0 (.free exT) exT, .go 0 99 0, .ret 0, .store exT 7#8 0, .go 2 99 0, .ret 2,
      .inv 1 (.free (exT + 32768)) (exT + 32768), .go 1 99 0, .ret 1, .inv 3 (.malloc 16376) 0, .go 3 99 0, .ret 3] []
      ⟨exStOf 77594624, fun _ => ⟨0, false⟩, fun _ => none, fun _ => exStOf 77594624⟩).any fun x =>
      match x.1.drop 7 with
      | .inv 0 (.free q) q' :: h0 => decide (q = exT) && decide (q' = exT) && ((hold h0).live exT).isSome && ((hold (x.1.take 7 ++ .inv 0 (.free q) q' :: h0)).live exT).isSome &&
          decide (meanwhile (Call.frees tinyRo 0 36) (x.1.take 7) h0 = 2) && decide ((x.1.take 7).countP (CEv.begins (Call.frees tinyRo 0 36)) = 1)
      | _ => false) = true := by decide +kernel
  rw [Option.any_eq_true] at key
  obtain ⟨⟨h, s⟩, k1, k2⟩ := key
  have r : WReach tinyCfg tinyRo (fun _ => 0) true h s := runW_reach (.init tiny_init fun _ => rfl) k1
  simp only at k2
  split at k2
  · rename_i q q' h0 e
    simp only [Bool.and_eq_true, decide_eq_true_eq] at k2
    obtain ⟨⟨⟨⟨⟨rfl, rfl⟩, k3⟩, k4⟩, k5⟩, k6⟩ := k2
    have e2 : h = h.take 7 ++ .inv 0 (.free exT) exT :: h0 := by rw [← e, List.take_append_drop]
    exact ⟨h.take 7, h0, s, e2 ▸ r, rfl, by unfold Ro.area; decide +kernel, k3, k4, k5, k6, by decide +kernel⟩
  · cases k2

deriving instance DecidableEq for MallInfo
deriving instance DecidableEq for Call
deriving instance DecidableEq for Ret
deriving instance DecidableEq for CEv

/-- A second large block. -/
abbrev exBig2 : Nat := exBig - exMapAt + 0x110000000000

/-- Thread 0 frees its large block while thread 1 maps another one; afterwards thread 1 frees this one. -/
example : ∃ evs1 evs2 h0 s0 s1 s, CReach (exCfg false false) (exRo false false) (fun t => t % 4) true h0 s0 ∧ (hold h0).live exBig = some ⟨200000, none⟩ ∧
    Usable (exRo false false) s0.σ exBig 229376 ∧ ¬ ((exRo false false).slabStart ≤ exBig ∧ exBig < (exRo false false).slabEnd) ∧
    (exCfg false false).maxSlab < 200000 ∧ (exCfg false false).mallocUsable 200000 = 229376 ∧ 229376 < (exCfg false false).regionQSkip ∧
    CStep (exRo false false) (fun t => t % 4) true h0 s0 (.inv 0 (.free exBig) exBig :: h0) s1 ∧
    CSteps (exRo false false) (fun t => t % 4) true (.inv 0 (.free exBig) exBig :: h0) s1 (evs2 ++ .ret 0 (.free exBig) .unit :: evs1 ++ .inv 0 (.free exBig) exBig :: h0) s ∧
    Goes 0 evs1 ∧ evs1.length = 1 ∧ meanwhile (Call.large (exRo false false)) (evs2 ++ .ret 0 (.free exBig) .unit :: evs1) h0 = 1 ∧
    1 < (exCfg false false).regionQQueue + 1 := by
  have key : ((exRunC false false [.inv 0 (.malloc 200000) 0, .go 0 99 exMapAt, .ret 0]).any fun x =>
      decide (x.1 = [.ret 0 (.malloc 200000) (.ptr exBig), .inv 0 (.malloc 200000) 0]) && decide (usableB (exRo false false) x.2.σ exBig = some 229376) && (x.2.run 0).isNone &&
      ((runC (exRo false false) (fun t => t % 4) [.go 0 3 0, .inv 1 (.malloc 200000) 0, .go 0 99 0, .ret 0, .go 1 99 0x110000000000, .ret 1,
        .inv 1 (.free exBig2) exBig2, .go 1 99 0, .ret 1] (.inv 0 (.free exBig) exBig :: x.1)
        ⟨x.2.σ, x.2.tl, upd x.2.run 0 (some (.free exBig, (Call.free exBig).prog (exRo false false) (0 % 4))), upd x.2.start 0 x.2.σ⟩).any fun y =>
        decide (y.1 = [.ret 1 (.free exBig2) .unit, .inv 1 (.free exBig2) exBig2, .ret 1 (.malloc 200000) (.ptr exBig2), .ret 0 (.free exBig) .unit, .inv 1 (.malloc 200000) 0,
          .inv 0 (.free exBig) exBig, .ret 0 (.malloc 200000) (.ptr exBig), .inv 0 (.malloc 200000) 0]))) = true := by decide +kernel
  rw [Option.any_eq_true] at key
  obtain ⟨⟨h, s⟩, k1, k2⟩ := key
  simp only [Bool.and_eq_true, decide_eq_true_eq, Option.any_eq_true, Option.isNone_iff_eq_none] at k2
  obtain ⟨⟨⟨rfl, k3⟩, k4⟩, ⟨h', s'⟩, k5, k6⟩ := k2
  simp only at k6
  subst k6
  refine ⟨[.inv 1 (.malloc 200000) 0], [.ret 1 (.free exBig2) .unit, .inv 1 (.free exBig2) exBig2, .ret 1 (.malloc 200000) (.ptr exBig2)], _, s, _, s',
    runC_reach (.init (exInit false false) fun _ => rfl) k1, by decide, usableB_usable k3, by decide, by decide, by decide +kernel, by decide,
    .invoke 0 (.free exBig) exBig k4 (by unfold Call.Ok; decide) ⟨rfl, Or.inr (by decide)⟩, runC_steps k5 ?_, ?_, rfl, by decide +kernel, by decide⟩
  · simp
  · simp [Goes]

end HM
