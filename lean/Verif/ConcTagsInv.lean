import Verif.ConcTags
import Verif.ConcInv
import Verif.MteInv
/-
The tags of states that are reachable with threads. What was proved for the tags after a sequence of calls (`TInv`) is applied to the slots that have been allocated and
freed, as if each had been a call of its own.
-/
namespace HM

variable {g : Cfg} {ro : Ro} {ar : Nat → Nat} {calm : Bool} {sys : Nat → Bool} {h h' : List CEv} {s s' : CSys} {L l : List SlotEv} {T T' : Tags}

/-- As a call that allocates or frees. -/
def SlotEv.call : SlotEv → Ev × Nat
  | .born p t => (.call 0 (.malloc 1) (.ptr p), t)
  | .died p => (.call 0 (.free p) .unit, 0)

/-- The calls. -/
def calls (L : List SlotEv) : List (Ev × Nat) := L.map SlotEv.call

theorem slotInUse_iff {σ : St} {p : Nat} : SlotInUse ro σ p ↔ ∃ a c i k, IsSmall ro σ p a c i k := by
  unfold SlotInUse IsSmall SC.live SC.used SC.quar
  simp only [Bool.and_eq_true, Bool.not_eq_true']

theorem tagsAt_calls {p : Nat} (hp : p ≠ 0) (L : List SlotEv) : tagsAt p (calls L) = tagsOf p L := by
  unfold tagsAt tagsOf calls
  rw [List.filterMap_map]
  congr 1
  funext e
  cases e with
  | born q t =>
    have e : (Ev.call 0 (.malloc 1) (.ptr q)).created = if q = 0 then none else some q := rfl
    have : (Ev.call 0 (.malloc 1) (.ptr q)).created = some p ↔ q = p := by
      rw [e]
      by_cases hq : q = 0
      · subst hq; simp [Ne.symm hp]
      · simp [hq]
    simp only [Function.comp, SlotEv.call, this]
  | died q => simp [SlotEv.call, Ev.created, Call.request]

theorem live_born {p t : Nat} (hp : p ≠ 0) (L : List SlotEv) (x : Nat) :
    live ((calls (.born p t :: L)).map Prod.fst) x = if x = p then some ⟨1, none⟩ else live ((calls L).map Prod.fst) x := by
  show liveStep (live ((calls L).map Prod.fst)) (.call 0 (.malloc 1) (.ptr p)) x = _
  have hb : (Ret.ptr p).block = some p := by unfold Ret.block; simp only [if_neg hp]
  rw [liveStep_request (i := ⟨1, none⟩) rfl hb]

theorem live_died (p : Nat) (L : List SlotEv) (x : Nat) :
    live ((calls (.died p :: L)).map Prod.fst) x = if x = p then none else live ((calls L).map Prod.fst) x := rfl

theorem remap_same (T : Tags) (b : Nat → Prot) : T.remap b b = T := by
  have h0 : ∀ pg, (decide (b pg = .rw) && decide (b pg = .none)) = false := fun pg => by cases b pg <;> rfl
  unfold Tags.remap
  simp only [h0, Bool.not_false, Bool.and_true, Bool.false_eq_true, if_false]

theorem SlotInUse.facts {w : World} (hro : RoOk ro) (hi : GInv ro w) {p : Nat} (h : SlotInUse ro w.σ p) :
    p ≠ 0 ∧ (ro.tagged p → ∃ a c i k, SlotAt ro p a c i k) := by
  obtain ⟨a, c, i, k, h1⟩ := slotInUse_iff.mp h
  obtain ⟨h2, h3, _⟩ := h1.lt hi
  refine ⟨?_, fun ht => ⟨a, c, i, k, h1.1, h1.2.1, Nat.pos_of_ne_zero fun e => ?_, h2, h3, h1.2.2.1⟩⟩
  · rintro rfl
    have h4 := (hi.blk 0).mpr (Or.inl ⟨a, c, i, k, h1⟩)
    exact h4 (blk_zero hro hi)
  · have := ht.2
    rw [h1.cls hro hi] at this
    exact this (((classGeo ro.g h1.2.1).zero_iff).mp e)

theorem SlotInUse.rw {w : World} (hro : RoOk ro) (hi : GInv ro w) {p a c i k x : Nat} (h : SlotInUse ro w.σ p) (hs : SlotAt ro p a c i k)
    (hx : inRange p (ro.g.slotSize c) x) : w.σ.vm.prot (x / PAGE) = .rw := by
  obtain ⟨a', c', i', k', h1⟩ := slotInUse_iff.mp h
  obtain ⟨h2, h3, h4⟩ := h1.lt hi
  have h0 : 0 < c' := Nat.pos_of_ne_zero fun e => by
    have := (hs.tagged hro).2
    rw [h1.cls hro hi] at this
    exact this (((classGeo ro.g h1.2.1).zero_iff).mp e)
  obtain ⟨rfl, rfl, rfl, rfl⟩ := hs.unique hro ⟨h1.1, h1.2.1, h0, h2, h3, h1.2.2.1⟩
  exact (hi.clsVm a c hs.arena hs.cls).rw i x h4 hs.classSize (slot_range_slab hs.cls hs.slot (hs.addr ▸ hx))

/-- The tags while the slots of an action are allocated and freed. -/
theorem run_inv (hro : RoOk ro) (hsys : SysOk sys) {A A' : Nat → Prop} (I : TInv ro (calls L) T) (hA : ∀ p, (live ((calls L).map Prod.fst) p).isSome = true ↔ A p)
    (hs : ∀ p, A p ∨ A' p → p ≠ 0 ∧ (ro.tagged p → ∃ a c i k, SlotAt ro p a c i k)) (R : TagRun ro sys T l T') (hn : (l.map SlotEv.addr).Nodup)
    (hb : ∀ p t, .born p t ∈ l → ¬ A p ∧ A' p) (hd : ∀ p, .died p ∈ l → A p) :
    TInv ro (calls (l ++ L)) T' ∧ ∀ p, (live ((calls (l ++ L)).map Prod.fst) p).isSome = true ↔ (A p ∧ .died p ∉ l) ∨ ∃ t, .born p t ∈ l := by
  induction R with
  | nil => exact ⟨I, fun p => by simp [hA]⟩
  | @born l T' R r p ih =>
    rw [List.map_cons, List.nodup_cons] at hn
    obtain ⟨h1, h2⟩ := ih hn.2 (fun q t hq => hb q t (List.mem_cons_of_mem _ hq)) (fun q hq => hd q (List.mem_cons_of_mem _ hq))
    obtain ⟨b1, b2⟩ := hb p _ List.mem_cons_self
    obtain ⟨p0, p1⟩ := hs p (Or.inr b2)
    have hb : (Ret.ptr p).block = some p := by unfold Ret.block; simp only [if_neg p0]
    have hnb : ∀ t, .born p t ∉ l := fun t ht => hn.1 (List.mem_map.mpr ⟨_, ht, rfl⟩)
    have hnd : .died p ∉ l := fun ht => hn.1 (List.mem_map.mpr ⟨_, ht, rfl⟩)
    have hlp : live ((calls (l ++ L)).map Prod.fst) p = none := by
      refine Option.isNone_iff_eq_none.mp ?_
      rw [← Option.isSome_eq_false_iff, ← Bool.not_eq_true, h2]
      rintro (⟨k, _⟩ | ⟨t, k⟩)
      · exact b1 k
      · exact hnb t k
    have hcr : (Ev.call 0 (.malloc 1) (.ptr p)).created = some p := by simp only [Ev.created, Call.request, hb]
    have hlive : ∀ t x, live ((calls (.born p t :: (l ++ L))).map Prod.fst) x = if x = p then some ⟨1, none⟩ else live ((calls (l ++ L)).map Prod.fst) x :=
      fun t x => live_born p0 _ x
    have E : EvFacts ((calls (l ++ L)).map Prod.fst) (.call 0 (.malloc 1) (.ptr p)) := by
      refine ⟨fun q hq => ?_, fun q hq => (by cases hq), fun x hx _ => ?_⟩
      · rw [hcr] at hq
        cases hq
        refine ⟨hlp, ?_, nofun⟩
        have := hlive 0 p
        rw [if_pos rfl] at this
        exact (congrArg Option.isSome this).trans rfl
      · rw [hcr] at hx
        have := hlive 0 x
        rw [if_neg (fun e => hx (by rw [e]))] at this
        exact congrArg Option.isSome this
    have h3 := h1.move (sys := sys) hro hsys E (before := fun _ => .rw) (after := fun _ => .rw) (fun q hq => by rw [hcr] at hq; cases hq; exact p1)
      (fun q hq => by cases hq) (fun _ _ _ _ _ _ _ _ _ h => by cases h.2) r
    have e3 : T'.step ro sys r (.call 0 (.malloc 1) (.ptr p)) (fun _ => .rw) (fun _ => .rw) = T'.alloc ro sys r p := by
      unfold Tags.step
      rw [hcr]
      simp only [Option.map_some, Option.getD_some, Ev.freed, Option.map_none, Option.getD_none]
      rw [remap_same]
    rw [e3] at h3
    refine ⟨h3, fun q => ?_⟩
    rw [List.cons_append, hlive]
    by_cases hq : q = p
    · subst hq
      rw [if_pos rfl]
      exact iff_of_true rfl (Or.inr ⟨_, List.mem_cons_self⟩)
    · rw [if_neg hq, h2]
      simp only [List.mem_cons, reduceCtorEq, false_or, SlotEv.born.injEq, hq, false_and]
  | @died l T' R p ih =>
    rw [List.map_cons, List.nodup_cons] at hn
    obtain ⟨h1, h2⟩ := ih hn.2 (fun q t hq => hb q t (List.mem_cons_of_mem _ hq)) (fun q hq => hd q (List.mem_cons_of_mem _ hq))
    have d1 := hd p List.mem_cons_self
    obtain ⟨p0, p1⟩ := hs p (Or.inl d1)
    have hnb : ∀ t, .born p t ∉ l := fun t ht => hn.1 (List.mem_map.mpr ⟨_, ht, rfl⟩)
    have hnd : .died p ∉ l := fun ht => hn.1 (List.mem_map.mpr ⟨_, ht, rfl⟩)
    have hfr : (Ev.call 0 (.free p) .unit).freed = some p := if_neg p0
    have E : EvFacts ((calls (l ++ L)).map Prod.fst) (.call 0 (.free p) .unit) := by
      refine ⟨fun q hq => (by cases hq), fun q hq => ?_, fun x _ hx => ?_⟩
      · rw [hfr] at hq
        cases hq
        exact ⟨(h2 p).mpr (Or.inl ⟨d1, hnd⟩), if_pos rfl⟩
      · rw [hfr] at hx
        exact congrArg Option.isSome (if_neg (fun e => hx (by rw [e])))
    have h3 := h1.move (sys := sys) hro hsys E (before := fun _ => .rw) (after := fun _ => .rw) (fun q hq => by cases hq)
      (fun q hq => by rw [hfr] at hq; cases hq; exact p1) (fun _ _ _ _ _ _ _ _ _ h => by cases h.2) 0
    have e3 : T'.step ro sys 0 (.call 0 (.free p) .unit) (fun _ => .rw) (fun _ => .rw) = (T'.free ro p, 0) := by
      unfold Tags.step
      rw [hfr]
      simp only [Option.map_some, Option.getD_some, Ev.created, Call.request, Option.map_none, Option.getD_none]
      rw [remap_same]
    rw [e3] at h3
    refine ⟨h3, fun q => ?_⟩
    rw [List.cons_append, live_died]
    by_cases hq : q = p
    · subst hq
      rw [if_pos rfl]
      refine iff_of_false nofun ?_
      rintro (⟨_, k⟩ | ⟨t, k⟩)
      · exact k List.mem_cons_self
      · rcases List.mem_cons.mp k with k | k
        · cases k
        · exact hnb t k
    · rw [if_neg hq, h2]
      simp only [List.mem_cons, SlotEv.died.injEq, hq, false_or, reduceCtorEq]

/-- Pages are released. -/
theorem TInv.remap (hro : RoOk ro) (hsys : SysOk sys) {hh : List (Ev × Nat)} (I : TInv ro hh T) {before after : Nat → Prot}
    (hk : ∀ p a c i k x, SlotAt ro p a c i k → (HM.live (hh.map Prod.fst) p).isSome = true → inRange p (ro.g.slotSize c) x →
      ¬ (before (x / PAGE) = .rw ∧ after (x / PAGE) = .none)) : TInv ro hh (T.remap before after) := by
  have E : EvFacts (hh.map Prod.fst) (.errno 0 0) := ⟨fun _ h => (by cases h), fun _ h => (by cases h), fun _ _ _ => rfl⟩
  have h1 := I.move (sys := sys) hro hsys E (before := before) (after := after) (fun _ h => by cases h) (fun _ h => by cases h) hk 0
  have e1 : ∀ p, tagsAt p ((Ev.errno 0 0, 0) :: hh) = tagsAt p hh := fun p => by rw [tagsAt_cons]; exact if_neg nofun
  have e2 : HM.live (((Ev.errno 0 0, 0) :: hh).map Prod.fst) = HM.live (hh.map Prod.fst) := rfl
  have e3 : T.step ro sys 0 (.errno 0 0) before after = (T.remap before after, 0) := rfl
  rw [e3] at h1
  constructor
  · simpa only [e1] using h1.own
  · exact h1.edge
  · simpa only [e1, e2] using h1.mem
  · simpa only [e1] using h1.tags
  · simpa only [e1] using h1.chain
  · simpa only [e1] using h1.next
  · simpa only [e1, e2] using h1.live
  · exact h1.out
  · simpa only [e1] using h1.slot

theorem CTReach.creach (r : CTReach g ro ar calm sys h s L T) : CReach g ro ar calm h s := by
  induction r with
  | init _ hi htl => exact .init hi htl
  | step r st _ ih => exact ih.next st

theorem init_unused (hg : Good g ar) {σ : St} (hi : Initialised g ro σ) (p : Nat) : ¬ SlotInUse ro σ p := fun h => by
  obtain ⟨h1, _⟩ := hi.inv hg.valid hg.freeQ false
  obtain ⟨a, c, i, k, h2⟩ := slotInUse_iff.mp h
  exact (h1.blk p).mpr (Or.inl ⟨a, c, i, k, h2⟩) rfl

/-- The tags of a reachable state. -/
theorem CTReach.inv (hg : Good g ar) (hsys : SysOk sys) (r : CTReach g ro ar calm sys h s L T) :
    TInv ro (calls L) T ∧ ∀ p, (live ((calls L).map Prod.fst) p).isSome = true ↔ SlotInUse ro s.σ p := by
  induction r with
  | init _ hi _ => exact ⟨TInv.init ro, fun p => iff_of_false nofun (init_unused hg hi p)⟩
  | @step h h' s s' L l T T' r st ht ih =>
    obtain ⟨hro, _⟩ := r.creach.roOk hg
    obtain ⟨w, n0, i⟩ := r.creach.inv hg
    obtain ⟨w', n1, i'⟩ := (r.creach.next st).inv hg
    obtain ⟨T1, h1, rfl, h3, h4, h5⟩ := ht
    obtain ⟨k1, k2⟩ := run_inv hro hsys (A := SlotInUse ro s.σ) (A' := SlotInUse ro s'.σ) ih.1 ih.2
      (fun p hp => by
        rcases hp with hp | hp
        · rw [← i.σ] at hp; exact hp.facts hro i.inv
        · rw [← i'.σ] at hp; exact hp.facts hro i'.inv) h1 h3 (fun p t hp => (h4 p).mp ⟨t, hp⟩) (fun p hp => ((h5 p).mp hp).1)
    have k3 : ∀ p, (live ((calls (l ++ L)).map Prod.fst) p).isSome = true ↔ SlotInUse ro s'.σ p := fun p => by
      rw [k2 p, h4 p, h5 p]
      by_cases q1 : SlotInUse ro s.σ p <;> by_cases q2 : SlotInUse ro s'.σ p <;> simp [q1, q2]
    refine ⟨k1.remap hro hsys fun p a c i k x hs hl hx hp => ?_, k3⟩
    have := (k3 p).mp hl
    rw [← i'.σ] at this hp
    rw [this.rw hro i'.inv hs hx] at hp
    cases hp.2

/-! ### Every step has a change of tags -/

/-- The addresses of all slots. -/
def allSlots (ro : Ro) : List Nat :=
  (List.range ro.g.nArena).flatMap fun a => (List.range (nClasses ro.g)).flatMap fun c => (List.range (ro.g.metaMax c)).flatMap fun i =>
    (List.range (ro.g.slots c)).map fun k => slotAddr ro.g (ro.regionStart a c) c i k

theorem SlotInUse.mem {w : World} (hi : GInv ro w) {p : Nat} (h : SlotInUse ro w.σ p) : p ∈ allSlots ro := by
  obtain ⟨a, c, i, k, h1⟩ := slotInUse_iff.mp h
  obtain ⟨h2, h3, _⟩ := h1.lt hi
  unfold allSlots
  simp only [List.mem_flatMap, List.mem_range, List.mem_map]
  exact ⟨a, h1.1, c, h1.2.1, i, h2, k, h3, h1.2.2.1.symm⟩

theorem tagRun_total (T : Tags) (B D : List Nat) : ∃ l T', TagRun ro sys T l T' ∧ l.map SlotEv.addr = B ++ D ∧ (∀ p, (∃ t, .born p t ∈ l) ↔ p ∈ B) ∧ ∀ p, .died p ∈ l ↔ p ∈ D := by
  induction B with
  | nil =>
    induction D with
    | nil => exact ⟨[], T, .nil, rfl, by simp, by simp⟩
    | cons q D ih =>
      obtain ⟨l, T', h1, h2, h3, h4⟩ := ih
      refine ⟨_, _, h1.died q, by simp [SlotEv.addr, h2], fun p => ?_, fun p => ?_⟩
      · simp only [List.mem_cons, reduceCtorEq, false_or, h3]
      · simp only [List.mem_cons, SlotEv.died.injEq, h4]
  | cons q B ih =>
    obtain ⟨l, T', h1, h2, h3, h4⟩ := ih
    refine ⟨_, _, h1.born 0 q, by simp [SlotEv.addr, h2], fun p => ?_, fun p => ?_⟩
    · rw [List.mem_cons, ← h3]
      simp only [List.mem_cons, SlotEv.born.injEq]
      constructor
      · rintro ⟨t, ⟨rfl, _⟩ | k⟩
        · exact Or.inl rfl
        · exact Or.inr ⟨t, k⟩
      · rintro (rfl | ⟨t, k⟩)
        · exact ⟨_, Or.inl ⟨rfl, rfl⟩⟩
        · exact ⟨t, Or.inr k⟩
    · simp only [List.mem_cons, reduceCtorEq, false_or, h4]

open Classical in
/-- Every step changes the tags in some way. -/
theorem tagStep_total {w w' : World} (hi : GInv ro w) (hi' : GInv ro w') (T : Tags) : ∃ l T', TagStep ro sys w.σ w'.σ T l T' := by
  obtain ⟨l, T', h1, h2, h3, h4⟩ := tagRun_total (ro := ro) (sys := sys) T
    ((allSlots ro).dedup.filter fun p => decide (¬ SlotInUse ro w.σ p ∧ SlotInUse ro w'.σ p))
    ((allSlots ro).dedup.filter fun p => decide (SlotInUse ro w.σ p ∧ ¬ SlotInUse ro w'.σ p))
  refine ⟨l, _, T', h1, rfl, ?_, fun p => ?_, fun p => ?_⟩
  · rw [h2, List.nodup_append]
    refine ⟨(List.nodup_dedup _).filter _, (List.nodup_dedup _).filter _, fun x hx y hy e => ?_⟩
    subst e
    simp only [List.mem_filter, decide_eq_true_eq] at hx hy
    exact hx.2.1 hy.2.1
  · rw [h3]
    simp only [List.mem_filter, List.mem_dedup, decide_eq_true_eq]
    exact ⟨fun h => h.2, fun h => ⟨h.2.mem hi', h⟩⟩
  · rw [h4]
    simp only [List.mem_filter, List.mem_dedup, decide_eq_true_eq]
    exact ⟨fun h => h.2, fun h => ⟨h.1.mem hi, h⟩⟩

/-- Every state that is reachable with threads is reachable with threads and tags. -/
theorem CReach.tags (hg : Good g ar) (hmt : g.memtag = true) (sys : Nat → Bool) (r : CReach g ro ar calm h s) : ∃ L T, CTReach g ro ar calm sys h s L T := by
  refine r.induction (M := fun h s => ∃ L T, CTReach g ro ar calm sys h s L T) (fun hi htl => ⟨_, _, .init hmt hi htl⟩) (fun r st ih => ?_)
  obtain ⟨L, T, k⟩ := ih
  obtain ⟨w, n0, i⟩ := r.inv hg
  obtain ⟨w', n1, i'⟩ := (r.next st).inv hg
  obtain ⟨l, T', h1⟩ := tagStep_total (sys := sys) i.inv i'.inv T
  rw [i.σ, i'.σ] at h1
  exact ⟨_, _, k.step st h1⟩

end HM
