import Verif.ConcTagsInv
import Verif.ConcExample
import Verif.Props.TagAccess
import Verif.Props.ThreadsQuarantine
/-
C68: memory tags when the calls of several threads are interleaved (C34 and C67 say the same of applications that make one call at a time).
The theorems are partial because executions in which the kernel refuses to release the end of the mapping of an over-aligned block are missing, as for C36 (see Threads.lean).
-/
namespace HM

variable {g : Cfg} {ro : Ro} {ar : Nat → Nat} {calm : Bool} {sys : Nat → Bool} {h h' : List CEv} {s s' : CSys} {L L1 L2 l : List SlotEv} {T T' : Tags}

/-- A block that the application may use, and that has tags, is in a slot in use. -/
theorem live_inUse (hg : Good g ar) (r : CReach g ro ar calm h s) {p : Nat} (hl : ((hold h).live p).isSome) (ht : ro.tagged p) : SlotInUse ro s.σ p := by
  obtain ⟨hro, _⟩ := r.roOk hg
  obtain ⟨w, n0, i⟩ := r.inv hg
  rw [← i.σ, slotInUse_iff]
  have h1 := (i.inv.blk p).mp (by rw [(i.app p).mpr hl]; simp)
  rcases h1 with h1 | ⟨_, _, h1⟩
  · exact h1
  · have := has_not_inSlab hro i.inv h1
    rw [ht.1] at this
    cases this

/-- C68. A slot in use, whether the application has its block or a call that is in progress, has a tag from 1 to 15, and all of its memory has this tag. This includes the blocks
between which `realloc` copies. -/
theorem c68_in_use_partial (hg : Good g ar) (hsys : SysOk sys) (r : CTReach g ro ar calm sys h s L T) {p : Nat} (hu : SlotInUse ro s.σ p) (ht : ro.tagged p) :
    0 < ptrTag p L ∧ ptrTag p L < 16 ∧ ∀ x, ro.slotBytes p x → ¬ T.mismatch (ptrTag p L) x := by
  obtain ⟨hro, _⟩ := r.creach.roOk hg
  obtain ⟨w, n0, i⟩ := r.creach.inv hg
  obtain ⟨I, hA⟩ := r.inv hg hsys
  obtain ⟨p0, hs⟩ := (show SlotInUse ro w.σ p from i.σ ▸ hu).facts hro i.inv
  obtain ⟨a, c, j, k, hs⟩ := hs ht
  obtain ⟨t, h1, h2, h3, h4⟩ := I.live_tag hro hs ((hA p).mpr hu)
  have e : ptrTag p L = t := by
    have := lastTag_headD h1
    rw [tagsAt_calls p0] at this
    exact this
  rw [e]
  exact ⟨h2, h3, h4⟩

theorem TagRun.untagged (R : TagRun ro sys T l T') {p t : Nat} (hp : ¬ ro.tagged p) (h : .born p t ∈ l) : t = 0 := by
  induction R with
  | nil => cases h
  | born R r q ih =>
    rcases List.mem_cons.mp h with h | h
    · cases h; rw [alloc_untagged hp]
    · exact ih h
  | died R q ih =>
    rcases List.mem_cons.mp h with h | h
    · cases h
    · exact ih h

theorem mem_tagsOf {p t : Nat} : t ∈ tagsOf p L ↔ .born p t ∈ L := by
  unfold tagsOf
  rw [List.mem_filterMap]
  constructor
  · rintro ⟨e, h1, h2⟩
    cases e with
    | born q t' =>
      simp only at h2
      split at h2
      · rename_i e; cases h2; exact e ▸ h1
      · cases h2
    | died q => cases h2
  · exact fun h => ⟨_, h, by simp⟩

/-- The tag of a pointer to a block without tags is 0. -/
theorem CTReach.untagged (r : CTReach g ro ar calm sys h s L T) {p : Nat} (hp : ¬ ro.tagged p) : ptrTag p L = 0 := by
  have key : ∀ t, .born p t ∈ L → t = 0 := by
    induction r with
    | init _ _ _ => intro t h; cases h
    | step r st ht ih =>
      obtain ⟨_, h1, _⟩ := ht
      intro t h
      rcases List.mem_append.mp h with h | h
      · exact h1.untagged hp h
      · exact ih t h
  unfold ptrTag
  cases e : tagsOf p L with
  | nil => rfl
  | cons t l => exact key t (mem_tagsOf.mp (by rw [e]; exact List.mem_cons_self))

/-- C68. Every usable byte of a block that the application may use, small or large, has the tag of the pointer to it: accesses of the threads to their blocks never fault,
whatever other threads allocate and free meanwhile. -/
theorem c68_no_fault_partial (hg : Good g ar) (hsys : SysOk sys) (r : CTReach g ro ar calm sys h s L T) {p u x : Nat} (hl : ((hold h).live p).isSome)
    (hu : Usable ro s.σ p u) (h1 : p ≤ x) (h2 : x < p + u) : ¬ T.mismatch (ptrTag p L) x := by
  obtain ⟨hro, _⟩ := r.creach.roOk hg
  obtain ⟨w, n0, i⟩ := r.creach.inv hg
  obtain ⟨I, hA⟩ := r.inv hg hsys
  rcases usable_place_of hro i.inv (i.eff hl) ((i.usable_iff hro hl).mp hu) h1 h2 with ⟨a, c, j, k, hs, hx⟩ | ⟨k1, k2⟩
  · have ht := hs.tagged hro
    exact (c68_in_use_partial hg hsys r (live_inUse hg r.creach hl ht) ht).2.2 x ((hs.slotBytes hro).mpr hx)
  · intro hn
    apply hn
    rw [I.out x k2]
    exact (r.untagged k1).symm

/-! ### New tags -/

theorem TagRun.suffix (R : TagRun ro sys T (L2 ++ L1) T') : ∃ T1, TagRun ro sys T L1 T1 := by
  induction L2 generalizing T' with
  | nil => exact ⟨_, R⟩
  | cons e L2 ih =>
    cases R with
    | born R r p => exact ih R
    | died R p => exact ih R

/-- The tags at an earlier time, possibly within an action. -/
theorem CTReach.earlier (hg : Good g ar) (hsys : SysOk sys) (r : CTReach g ro ar calm sys h s (L2 ++ L1) T) : ∃ T1, TInv ro (calls L1) T1 := by
  generalize eL : L2 ++ L1 = L at r
  induction r generalizing L2 with
  | init _ _ _ =>
    obtain ⟨_, rfl⟩ := List.append_eq_nil_iff.mp eL
    exact ⟨_, TInv.init ro⟩
  | @step h h' s s' L l T T' r st ht ih =>
    rcases List.append_eq_append_iff.mp eL with ⟨l', rfl, e⟩ | ⟨l', rfl, e⟩
    · -- the end lies in this step
      subst e
      obtain ⟨hro, _⟩ := r.creach.roOk hg
      obtain ⟨w, n0, i⟩ := r.creach.inv hg
      obtain ⟨w', n1, i'⟩ := (r.creach.next st).inv hg
      obtain ⟨T1, h1, _, h3, h4, h5⟩ := ht
      obtain ⟨T2, h2⟩ := h1.suffix
      obtain ⟨I, hA⟩ := r.inv hg hsys
      rw [List.map_append] at h3
      exact ⟨_, (run_inv hro hsys (A := SlotInUse ro s.σ) (A' := SlotInUse ro s'.σ) I hA
        (fun p hp => by
          rcases hp with hp | hp
          · rw [← i.σ] at hp; exact hp.facts hro i.inv
          · rw [← i'.σ] at hp; exact hp.facts hro i'.inv) h2 (List.nodup_append.mp h3).2.1
        (fun p t hp => (h4 p).mp ⟨t, List.mem_append_right _ hp⟩) (fun p hp => ((h5 p).mp (List.mem_append_right _ hp)).1)).1⟩
    · exact ih e.symm

theorem tagged_ne_zero (hro : RoOk ro) {p : Nat} (hp : ro.tagged p) : p ≠ 0 := by
  rintro rfl
  have h1 := hp.1
  have h2 := hro.lo
  unfold Ro.inSlab at h1
  simp only [Bool.and_eq_true, decide_eq_true_eq] at h1
  omega

theorem lastTag_calls {p : Nat} (hp : p ≠ 0) : lastTag p (calls L) = (tagsOf p L).head? := by unfold lastTag; rw [tagsAt_calls hp]

theorem created_born {p t : Nat} (hp : p ≠ 0) : (SlotEv.born p t).call.1.created = some p := by
  show (Ev.call 0 (.malloc 1) (.ptr p)).created = _
  simp only [Ev.created, Call.request, Ret.block, if_neg hp]

/-- C68. The tag that a slot is given is one of 1 to 15, and differs from the tag that the slot was given before, and from the last tags given to the neighbours in the same slab. -/
theorem c68_new_tag_partial (hg : Good g ar) (hsys : SysOk sys) {t p : Nat} (r : CTReach g ro ar calm sys h s (L2 ++ .born p t :: L1) T) (ht : ro.tagged p) :
    0 < t ∧ t < 16 ∧ (tagsOf p L1).head? ≠ some t ∧
      ∀ q, ro.sameSlab p q → ro.tagged q → q = p + ro.g.slotSize (ro.sizeClassOf p).2 ∨ p = q + ro.g.slotSize (ro.sizeClassOf p).2 → (tagsOf q L1).head? ≠ some t := by
  obtain ⟨hro, _⟩ := r.creach.roOk hg
  obtain ⟨T1, I⟩ := r.earlier hg hsys
  have p0 := tagged_ne_zero hro ht
  obtain ⟨h1, h2, h3, h4⟩ := TInv.new_tag hro (show TInv ro (((SlotEv.born p t).call.1, t) :: calls L1) T1 from I) (created_born p0) ht
  refine ⟨h1, h2, by rw [← lastTag_calls p0]; exact h3, fun q k1 k2 k3 => ?_⟩
  rw [← lastTag_calls (tagged_ne_zero hro k2)]
  exact h4 q k1 k2 k3

/-- C68. Overflow: an access with the pointer to a block in use, outside of the block but less than the size of the block away and in the same slab, does not match the tag of
memory, whatever other threads do with the memory it reaches. -/
theorem c68_overflow_partial (hg : Good g ar) (hsys : SysOk sys) (r : CTReach g ro ar calm sys h s L T) {p x : Nat} (hu : SlotInUse ro s.σ p) (ht : ro.tagged p)
    (hslab : ro.sameSlab p x) (hx : ¬ ro.slotBytes p x) (h1 : p ≤ x + ro.g.slotSize (ro.sizeClassOf p).2)
    (h2 : x < p + 2 * ro.g.slotSize (ro.sizeClassOf p).2) : T.mismatch (ptrTag p L) x := by
  obtain ⟨hro, _⟩ := r.creach.roOk hg
  obtain ⟨w, n0, i⟩ := r.creach.inv hg
  obtain ⟨I, hA⟩ := r.inv hg hsys
  obtain ⟨p0, hs⟩ := (show SlotInUse ro w.σ p from i.σ ▸ hu).facts hro i.inv
  obtain ⟨a, c, j, k, hs⟩ := hs ht
  obtain ⟨t, k1, _⟩ := I.live_tag hro hs ((hA p).mpr hu)
  have e : ptrTag p L = t := by
    have := lastTag_headD k1
    rw [tagsAt_calls p0] at this
    exact this
  rw [e]
  exact I.overflow hro hs k1 hslab hx h1 h2

/-- Without a new block in its slot, a block that has been freed is not live. -/
theorem died_dead {p : Nat} (hp : p ≠ 0) (hd : .died p ∈ L2) (hn : tagsOf p L2 = []) : live ((calls (L2 ++ L1)).map Prod.fst) p = none := by
  induction L2 with
  | nil => cases hd
  | cons e L2 ih =>
    cases e with
    | born q t =>
      have hqp : q ≠ p := fun e => by
        have : t ∈ tagsOf p (.born q t :: L2) := mem_tagsOf.mpr (by rw [e]; exact List.mem_cons_self)
        rw [hn] at this
        cases this
      have hn' : tagsOf p L2 = [] := by
        unfold tagsOf at hn ⊢
        rw [List.filterMap_cons] at hn
        simpa only [if_neg hqp] using hn
      have hd' : .died p ∈ L2 := by
        rcases List.mem_cons.mp hd with h | h
        · cases h
        · exact h
      by_cases hq : q = 0
      · subst hq; exact ih hd' hn'
      · rw [List.cons_append, live_born hq, if_neg (Ne.symm hqp)]
        exact ih hd' hn'
    | died q =>
      rw [List.cons_append, live_died]
      split
      · rfl
      · rename_i hqp
        refine ih ?_ hn
        rcases List.mem_cons.mp hd with h | h
        · cases h; exact absurd rfl hqp
        · exact h

/-- C68. Dangling pointers: after the block of a slot has been freed, by any thread, accesses with its pointer do not match the tag of memory, until the second time that the slot is
allocated again. -/
theorem c68_dangling_partial (hg : Good g ar) (hsys : SysOk sys) {t p x : Nat} (r : CTReach g ro ar calm sys h s (L2 ++ .born p t :: L1) T)
    (ht : ro.tagged p) (hd : .died p ∈ L2) (hn : (tagsOf p L2).length ≤ 1) (hx : ro.slotBytes p x) : T.mismatch t x := by
  obtain ⟨hro, _⟩ := r.creach.roOk hg
  obtain ⟨I, _⟩ := r.inv hg hsys
  have p0 := tagged_ne_zero hro ht
  have e : calls (L2 ++ .born p t :: L1) = calls L2 ++ ((SlotEv.born p t).call.1, t) :: calls L1 := by unfold calls; rw [List.map_append]; rfl
  rw [e] at I
  refine I.dangling hro (created_born p0) ht (fun h1 => ?_) (by rw [tagsAt_calls p0]; exact hn) hx
  rw [← e]
  exact died_dead p0 hd (by rw [tagsAt_calls p0] at h1; exact h1)

/-! ### Blocks that the application frees -/

variable {h0 h1 : List CEv} {s0 s1 : CSys} {L0 : List SlotEv} {T0 : Tags}

theorem CTReach.steps (r : CTReach g ro ar calm sys h0 s0 L0 T0) (q : CTSteps ro ar calm sys h0 s0 L0 T0 h s L T) : CTReach g ro ar calm sys h s L T := by
  induction q with
  | refl => exact r
  | tail _ st ht ih => exact ih.step st ht

theorem CTSteps.trans {h2 : List CEv} {s2 : CSys} {T1 : Tags} (p : CTSteps ro ar calm sys h0 s0 L0 T0 h1 s1 L1 T1) (q : CTSteps ro ar calm sys h1 s1 L1 T1 h2 s2 L T) :
    CTSteps ro ar calm sys h0 s0 L0 T0 h2 s2 L T := by
  induction q with
  | refl => exact p
  | tail _ st ht ih => exact ih.tail st ht

theorem CTSteps.log (q : CTSteps ro ar calm sys h0 s0 L0 T0 h s L T) : ∃ l, L = l ++ L0 := by
  induction q with
  | refl => exact ⟨[], rfl⟩
  | @tail _ _ _ _ _ l _ _ _ _ _ ih =>
    obtain ⟨l', rfl⟩ := ih
    exact ⟨l ++ l', (List.append_assoc ..).symm⟩

theorem CTSteps.split (q : CTSteps ro ar calm sys h0 s0 L0 T0 h s L T) {evs : List CEv} {e : CEv} (eh : h = evs ++ e :: h1) (hl : h0.length ≤ h1.length) :
    ∃ sa sb La l Ta Tb, CTSteps ro ar calm sys h0 s0 L0 T0 h1 sa La Ta ∧ CStep ro ar calm h1 sa (e :: h1) sb ∧ TagStep ro sys sa.σ sb.σ Ta l Tb ∧
      CTSteps ro ar calm sys (e :: h1) sb (l ++ La) Tb h s L T := by
  induction q generalizing evs with
  | refl => subst eh; simp at hl; omega
  | tail q st ht ih =>
    rcases st.hist with rfl | ⟨e', rfl⟩
    · obtain ⟨sa, sb, La, l, Ta, Tb, k1, k2, k3, k4⟩ := ih eh
      exact ⟨sa, sb, La, l, Ta, Tb, k1, k2, k3, k4.tail st ht⟩
    · cases evs with
      | nil =>
        simp only [List.nil_append, List.cons.injEq] at eh
        obtain ⟨rfl, rfl⟩ := eh
        exact ⟨_, _, _, _, _, _, q, st, ht, .refl⟩
      | cons e2 evs =>
        simp only [List.cons_append, List.cons.injEq] at eh
        obtain ⟨rfl, rfl⟩ := eh
        obtain ⟨sa, sb, La, l, Ta, Tb, k1, k2, k3, k4⟩ := ih rfl
        exact ⟨sa, sb, La, l, Ta, Tb, k1, k2, k3, k4.tail st ht⟩

theorem inUse_of_blk {w : World} (hro : RoOk ro) (hi : GInv ro w) {p : Nat} (ht : ro.tagged p) : SlotInUse ro w.σ p ↔ w.G.blk p ≠ .nobody := by
  rw [slotInUse_iff, hi.blk p]
  refine ⟨.inl, fun h => h.resolve_right ?_⟩
  rintro ⟨_, _, h1⟩
  have := has_not_inSlab hro hi h1
  rw [ht.1] at this
  cases this

/-- A block that a call of thread `t` has been given stays in its hands until it is freed. -/
theorem CTSteps.inHand (hg : Good g ar) (hro : RoOk ro) (eg : ro.g = g) {n1 : Nat → Nat} {w1 : World} {T1 : Tags} (q : CTSteps ro ar calm sys h1 s1 L1 T1 h s L T)
    (i1 : CInv ro calm n1 h1 s1 w1) {t p : Nat} {d : Call} (ht : ro.tagged p) (hr : ∃ Q, s1.run t = some (d, Q)) (hb : w1.G.blk p = .thr (t + 1)) :
    ∃ evs n w, h = evs ++ h1 ∧ CInv ro calm n h s w ∧ (Goes t evs → (∃ l, L = l ++ L1 ∧ .died p ∈ l) ∨ (∃ Q, s.run t = some (d, Q)) ∧ w.G.blk p = .thr (t + 1)) := by
  have goes : ∀ {e : CEv} {evs : List CEv}, Goes t (e :: evs) → Goes t evs := fun h e he => h e (List.mem_cons_of_mem _ he)
  induction q with
  | refl => exact ⟨[], n1, w1, rfl, i1, fun _ => .inr ⟨hr, hb⟩⟩
  | @tail h h' s s' L l T T' q st hts ih =>
    obtain ⟨evs, n, w, rfl, i, ih⟩ := ih
    obtain ⟨n', w', i', ch⟩ := i.step hg hro eg st
    have dies : w.G.blk p = .thr (t + 1) → w'.G.blk p = .nobody → ∃ l', l ++ L = l' ++ L1 ∧ .died p ∈ l' := by
      intro k1 k2
      obtain ⟨l', rfl⟩ := q.log
      obtain ⟨_, _, _, _, _, hd⟩ := hts
      refine ⟨l ++ l', (List.append_assoc ..).symm, List.mem_append_left _ ((hd p).mpr ⟨?_, ?_⟩)⟩
      · rw [← i.σ, inUse_of_blk hro i.inv ht, k1]; simp
      · rw [← i'.σ, inUse_of_blk hro i'.inv ht, k2]; simp
    have later : (∃ l', L = l' ++ L1 ∧ .died p ∈ l') → ∃ l', l ++ L = l' ++ L1 ∧ .died p ∈ l' := by
      rintro ⟨l', rfl, k⟩
      exact ⟨l ++ l', (List.append_assoc ..).symm, List.mem_append_right _ k⟩
    cases ch with
    | @act u c' β lb f k' b hcu hd eh en er es =>
      subst eh
      refine ⟨evs, n', w', rfl, i', fun hgo => ?_⟩
      rcases ih hgo with k | ⟨⟨Q, k1⟩, k2⟩
      · exact .inl (later k)
      · by_cases e : t = u
        · subst e
          rw [k1] at hcu; cases hcu
          cases hb' : w'.G.blk p with
          | nobody => exact .inl (dies k2 hb')
          | app =>
            have := ((hd.same .app (by simp) (by simp)).blk p).mp hb'
            rw [k2] at this; cases this
          | thr v =>
            by_cases ev : v = t + 1
            · subst ev
              exact .inr ⟨⟨_, by rw [er]; exact if_pos rfl⟩, rfl⟩
            · have := ((hd.same (.thr v) (by simp) (by simp [ev])).blk p).mp hb'
              rw [k2] at this; cases this; exact absurd rfl ev
        · exact .inr ⟨⟨Q, by rw [er]; exact (if_neg e).trans k1⟩, ((hd.same (.thr (t + 1)) (by simp) (by simp [e])).blk p).mpr k2⟩
    | @inv u c' b hi hl eh en er es ew =>
      subst eh
      refine ⟨_ :: evs, n', w', rfl, i', fun hgo => ?_⟩
      rcases ih (goes hgo) with k | ⟨⟨Q, k1⟩, k2⟩
      · exact .inl (later k)
      · refine .inr ⟨⟨Q, ?_⟩, ?_⟩
        · rw [er]
          refine (if_neg ?_).trans k1
          rintro rfl
          rw [hi] at k1; cases k1
        · rcases ew with ⟨rfl, _⟩ | ⟨rfl, e⟩
          · exact k2
          · refine (give_other _ _ ?_).trans k2
            rintro rfl
            have := (i.app p).mpr e
            rw [k2] at this; cases this
    | @ret u c' x hcu eh en er es ew =>
      subst eh
      refine ⟨_ :: evs, n', w', rfl, i', fun hgo => ?_⟩
      have hut : u ≠ t := by
        rintro rfl
        exact (hgo _ List.mem_cons_self).1 _ _ rfl
      rcases ih (goes hgo) with k | ⟨⟨Q, k1⟩, k2⟩
      · exact .inl (later k)
      · refine .inr ⟨⟨Q, by rw [er]; exact (if_neg (Ne.symm hut)).trans k1⟩, ?_⟩
        rcases ew with rfl | ⟨q', h2, _, rfl⟩
        · exact k2
        · refine (give_other _ _ ?_).trans k2
          rintro rfl
          rw [k2] at h2
          simp only [Holder.thr.injEq] at h2
          omega
    | @fork u hi eh en er es ew =>
      subst eh
      exact ⟨_ :: evs, n', w', rfl, i', fun hgo => absurd rfl ((hgo _ List.mem_cons_self).2 _)⟩
    | @out e eh he en er es hd eb ef ep =>
      subst eh
      refine ⟨_ :: evs, n', w', rfl, i', fun hgo => ?_⟩
      rw [er, eb]
      exact (ih (goes hgo)).imp_left later

/-- The call with answer `y` has given up the block at `p`: it is `free`, or `realloc` and has returned another block. -/
def GaveUp (p : Nat) (y : Ret) : Call → Prop
  | .free q => q = p
  | .freeSized q _ => q = p
  | .realloc q _ => q = p ∧ ∃ x, y.block = some x ∧ x ≠ p
  | _ => False

theorem gaveUp_gone {p : Nat} {y : Ret} {d : Call} : GaveUp p y d ↔ d.gone y p := by cases d <;> exact Iff.rfl

/-- When a call that frees a block of the application has returned, the slot of the block has been freed. -/
theorem CTSteps.freed (hg : Good g ar) (r : CTReach g ro ar calm sys h0 s0 L0 T0) {evs1 evs2 : List CEv} {t p : Nat} {d : Call} {y : Ret}
    (q : CTSteps ro ar calm sys h0 s0 L0 T0 (evs2 ++ .ret t d y :: (evs1 ++ .inv t d p :: h0)) s L T) (hgo : Goes t evs1)
    (hl : ((hold h0).live p).isSome) (ht : ro.tagged p) (hd : GaveUp p y d) : ∃ l, L = l ++ L0 ∧ .died p ∈ l := by
  obtain ⟨hro, eg⟩ := r.creach.roOk hg
  obtain ⟨sa, sb, La, l, Ta, Tb, q1, st1, ht1, q2⟩ := q.split (h1 := h0) (evs := evs2 ++ .ret t d y :: evs1) (e := .inv t d p) (by simp) (Nat.le_refl _)
  obtain ⟨sc, sd, Lc, l', Tc, Td, q3, st3, ht3, q4⟩ := q2.split (h1 := evs1 ++ .inv t d p :: h0) (evs := evs2) (e := .ret t d y) rfl (by simp)
  have r1 := r.steps q1
  obtain ⟨wa, na, ia⟩ := r1.creach.inv hg
  obtain ⟨nb, wb, ib, cb⟩ := ia.step hg hro eg st1
  have hb : (∃ Q, sb.run t = some (d, Q)) ∧ wb.G.blk p = .thr (t + 1) := by
    cases cb with
    | act hc hd eh en er es => exact absurd (congrArg List.length eh) (by simp)
    | inv hi hl' eh en er es ew =>
      cases eh
      refine ⟨⟨_, by rw [er]; exact if_pos rfl⟩, ?_⟩
      rcases ew with ⟨_, e⟩ | ⟨rfl, _⟩
      · rw [e] at hl; cases hl
      · exact give_self _ _ _
    | ret hc eh en er es ew => cases eh
    | fork hi eh en er es ew => cases eh
    | out eh he en er es hd eb ef ep => rcases he with ⟨_, _, rfl⟩ | ⟨_, _, rfl⟩ | ⟨_, _, rfl⟩ <;> cases eh
  obtain ⟨evs, n, w, e, i, k⟩ := q3.inHand hg hro eg ib ht hb.1 hb.2
  obtain rfl := List.append_cancel_right e
  rcases k hgo with ⟨l2, rfl, k3⟩ | ⟨⟨Q, k1⟩, k2⟩
  · obtain ⟨l3, rfl⟩ := q4.log
    obtain ⟨l1, rfl⟩ := q1.log
    exact ⟨l3 ++ (l' ++ (l2 ++ (l ++ l1))), by simp, List.mem_append_right _ (List.mem_append_right _ (List.mem_append_left _ k3))⟩
  · exfalso
    have key : ∀ {h h' : List CEv} {s s' : CSys}, CStep ro ar calm h s h' s' → h' = .ret t d y :: h → s.run t = some (d, .ret y) := by
      intro h h' s s' st e
      cases st with
      | ret t hc => cases e; exact hc
      | step => exact absurd (congrArg List.length e) (by simp)
      | _ => cases e
    have hQ := key st3 rfl
    exact (i.done hQ).2.left.gone p (tagged_ne_zero hro ht) (gaveUp_gone.mp hd) k2

/-- C68. Dangling pointers: when a thread has freed a block, with `free` or by moving it with `realloc`, and this call has returned, then accesses by any thread with the pointer that the
application had to the block do not match the tag of memory, until the second time that its slot is allocated again. -/
theorem c68_freed_partial (hg : Good g ar) (hsys : SysOk sys) (r : CTReach g ro ar calm sys h0 s0 L0 T0) {evs1 evs2 : List CEv} {t p x : Nat} {d : Call} {y : Ret}
    (hl : ((hold h0).live p).isSome) (ht : ro.tagged p)
    (q : CTSteps ro ar calm sys h0 s0 L0 T0 (evs2 ++ .ret t d y :: (evs1 ++ .inv t d p :: h0)) s (L2 ++ L0) T) (hgo : Goes t evs1) (hd : GaveUp p y d)
    (hn : (tagsOf p L2).length ≤ 1) (hx : ro.slotBytes p x) : T.mismatch (ptrTag p L0) x := by
  obtain ⟨l, e, hdied⟩ := q.freed hg r hgo hl ht hd
  obtain rfl := List.append_cancel_right e
  have hu := live_inUse hg r.creach hl ht
  have h1 := (c68_in_use_partial hg hsys r hu ht).1
  have happ : ∀ A B : List SlotEv, tagsOf p (A ++ B) = tagsOf p A ++ tagsOf p B := fun A B => List.filterMap_append
  have split : ∀ L : List SlotEv, ptrTag p L ≠ 0 → ∃ A B, L = A ++ .born p (ptrTag p L) :: B ∧ tagsOf p A = [] := by
    intro L
    induction L with
    | nil => intro h; exact absurd rfl h
    | cons e L ih =>
      intro h
      have skip : tagsOf p [e] = [] → ∃ A B, e :: L = A ++ .born p (ptrTag p (e :: L)) :: B ∧ tagsOf p A = [] := by
        intro k
        have e1 : ptrTag p (e :: L) = ptrTag p L := by
          unfold ptrTag
          rw [show e :: L = [e] ++ L from rfl, happ, k]; rfl
        rw [e1] at h ⊢
        obtain ⟨A, B, k1, k2⟩ := ih h
        exact ⟨e :: A, B, by rw [List.cons_append, ← k1], by rw [show e :: A = [e] ++ A from rfl, happ, k, k2]; rfl⟩
      cases e with
      | died q => exact skip rfl
      | born q t =>
        by_cases e : q = p
        · refine ⟨[], L, ?_, rfl⟩
          have : ptrTag p (.born q t :: L) = t := by unfold ptrTag tagsOf; simp [e]
          rw [this, e]; rfl
        · exact skip (by unfold tagsOf; simp [e])
  obtain ⟨A, B, e1, e2⟩ := split L0 (by omega)
  have r' := r.steps q
  rw [e1, ← List.append_assoc] at r'
  refine c68_dangling_partial hg hsys r' ht (List.mem_append_left _ hdied) ?_ hx
  rw [happ, e2, List.append_nil]
  exact hn

/-- C68. Memory of a slot that is not in use has the tag 0, which no pointer to a block of a slab has. -/
theorem c68_free_memory_partial (hg : Good g ar) (hsys : SysOk sys) (r : CTReach g ro ar calm sys h s L T) {x : Nat}
    (hx : ∀ p, SlotInUse ro s.σ p → ro.tagged p → ¬ ro.slotBytes p x) : T.tag (x / 16) = 0 := by
  obtain ⟨hro, _⟩ := r.creach.roOk hg
  obtain ⟨I, hA⟩ := r.inv hg hsys
  by_cases hex : ∃ p a c i k, SlotAt ro p a c i k ∧ inRange p (ro.g.slotSize c) x
  · obtain ⟨p, a, c, i, k, hs, h1⟩ := hex
    rw [I.mem p a c i k x hs h1, if_neg]
    intro hl
    exact hx p ((hA p).mp hl) (hs.tagged hro) ((hs.slotBytes hro).mpr h1)
  · exact I.out x fun p a c i k hs h1 => hex ⟨p, a, c, i, k, hs, h1⟩

/-! ### Examples -/

/-- The slot `k` of slab `i` of a class is in use. -/
def usedB (a c i k : Nat) (σ : St) : Bool := ((σ.sc a c).slabs i).bitmap.bit k && !((σ.sc a c).slabs i).qbitmap.bit k

theorem usedB_iff {w : World} (hro : RoOk ro) (hi : GInv ro w) {p a c i k : Nat} (hs : SlotAt ro p a c i k) : usedB a c i k w.σ = true ↔ SlotInUse ro w.σ p := by
  show (w.σ.sc a c).live i k = true ↔ _
  rw [slotInUse_iff]
  refine ⟨fun h => ⟨a, c, i, k, hs.arena, hs.cls, hs.addr, h⟩, fun ⟨a', c', i', k', h1⟩ => ?_⟩
  obtain ⟨h2, h3, _⟩ := h1.lt hi
  have h0 : 0 < c' := Nat.pos_of_ne_zero fun e => by
    have := (hs.tagged hro).2
    rw [h1.cls hro hi] at this
    exact this (((classGeo ro.g h1.2.1).zero_iff).mp e)
  obtain ⟨rfl, rfl, rfl, rfl⟩ := hs.unique hro ⟨h1.1, h1.2.1, h0, h2, h3, h1.2.2.1⟩
  exact h1.2.2.2

/-- At most one step. -/
def ExC.oneStep : ExC → Bool
  | .inv .. => true
  | .go _ n _ => decide (n = 1)
  | .ret _ => true
  | _ => false

/-- Run an example of which every part is at most one step; no step allocates the slot. -/
def runQ (ro : Ro) (ar : Nat → Nat) (P : St → Bool) : List ExC → List CEv → CSys → Option (List CEv × CSys)
  | [], h, s => some (h, s)
  | a :: as, h, s =>
    if a.oneStep then
      (a.run ro ar h s).bind fun x => if P x.2.σ && !P s.σ then none else runQ ro ar P as x.1 x.2
    else none

theorem ExC.one {a : ExC} (e : a.run ro ar h s = some (h', s')) (ok : a.oneStep = true) :
    (h' = h ∧ s' = s) ∨ CStep ro ar calm h s h' s' := by
  cases a with
  | inv t c b =>
    simp only [ExC.run] at e
    split at e
    · rename_i k
      simp only [Bool.and_eq_true, Option.isNone_iff_eq_none] at k
      cases e
      exact .inr (.invoke t c b k.1.1 (Call.okB_ok k.1.2) (lendsB_lends k.2))
    · cases e
  | go t n x =>
    obtain rfl : n = 1 := by simpa [ExC.oneStep] using ok
    obtain ⟨s2, k3, k4⟩ := Option.map_eq_some_iff.mp e
    cases k4
    unfold CSys.acts at k3
    split at k3
    · cases k3; exact .inl ⟨rfl, rfl⟩
    · obtain ⟨s3, k1, k2⟩ := Option.bind_eq_some_iff.mp k3
      cases k2
      unfold CSys.act at k1
      split at k1
      · rename_i c f k hr
        split at k1
        · rename_i σ' tl' b hf
          cases k1
          exact .inr (.step t hr (exAt_cenv calm x _) hf)
        · cases k1
      · cases k1
  | ret t =>
    simp only [ExC.run] at e
    split at e
    · rename_i c x k
      cases e
      exact .inr (.ret t k)
    · cases e
  | _ => cases ok

theorem runQ_tags (hg : Good g ar) {p a c i k : Nat} (hs : SlotAt ro p a c i k) {as : List ExC} (r : CTReach g ro ar calm sys h s L T)
    (e : runQ ro ar (usedB a c i k) as h s = some (h', s')) : ∃ L2 T', CTSteps ro ar calm sys h s L T h' s' (L2 ++ L) T' ∧ tagsOf p L2 = [] := by
  induction as generalizing h s L T with
  | nil => cases e; exact ⟨[], T, .refl, rfl⟩
  | cons b as ih =>
    unfold runQ at e
    split at e
    · rename_i ok
      obtain ⟨⟨h1, s1⟩, k1, k2⟩ := Option.bind_eq_some_iff.mp e
      simp only at k2
      split at k2
      · cases k2
      rename_i hq
      rcases ExC.one (calm := calm) k1 ok with ⟨rfl, rfl⟩ | st
      · exact ih r k2
      · obtain ⟨hro, _⟩ := r.creach.roOk hg
        obtain ⟨w, n0, I⟩ := r.creach.inv hg
        obtain ⟨w', n1, I'⟩ := (r.creach.next st).inv hg
        obtain ⟨l, T1, ht⟩ := tagStep_total (sys := sys) I.inv I'.inv T
        rw [I.σ, I'.σ] at ht
        obtain ⟨L2, T', q, hn⟩ := ih (r.step st ht) k2
        refine ⟨L2 ++ l, T', by rw [List.append_assoc]; exact CTSteps.trans (.tail .refl st ht) q, ?_⟩
        rw [show tagsOf p (L2 ++ l) = tagsOf p L2 ++ tagsOf p l from List.filterMap_append, hn, List.nil_append, List.eq_nil_iff_forall_not_mem]
        intro t hm
        obtain ⟨_, _, _, _, h4, _⟩ := ht
        obtain ⟨h5, h6⟩ := (h4 p).mp ⟨t, mem_tagsOf.mp hm⟩
        apply hq
        rw [← I.σ, ← usedB_iff hro I.inv hs] at h5
        rw [← I'.σ, ← usedB_iff hro I'.inv hs] at h6
        rw [I.σ] at h5
        rw [I'.σ] at h6
        simp [h5, h6]
    · cases e

/-- Threads 0 and 4 allocate neighbouring blocks while the calls of both are in progress; then thread 0 frees its block while thread 4 moves its own, so that `realloc` has begun and not
finished when `free` returns. What the theorems about tags demand is met. -/
example : ∃ evs1 evs2 h0 s0 s L0 L2 T0 T, CTReach (mtCfg true) (mtRo true) (fun t => t % 4) true (fun t => t == 0) h0 s0 L0 T0 ∧ SysOk (fun t => t == 0) ∧
    ((hold h0).live exA).isSome ∧ ((hold h0).live (exA + 112)).isSome ∧ (mtRo true).tagged exA ∧ (mtRo true).sameSlab exA (exA + 112) ∧
    Usable (mtRo true) s0.σ exA 104 ∧ Usable (mtRo true) s0.σ (exA + 112) 104 ∧
    CTSteps (mtRo true) (fun t => t % 4) true (fun t => t == 0) h0 s0 L0 T0 (evs2 ++ .ret 0 (.free exA) .unit :: (evs1 ++ .inv 0 (.free exA) exA :: h0)) s (L2 ++ L0) T ∧
    Goes 0 evs1 ∧ GaveUp exA .unit (.free exA) ∧ (tagsOf exA L2).length ≤ 1 ∧ (mtRo true).slotBytes exA (exA + 50) ∧
    SlotInUse (mtRo true) s.σ (exA + 112) ∧ (mtRo true).tagged (exA + 112) ∧
    (hold (evs2 ++ .ret 0 (.free exA) .unit :: (evs1 ++ .inv 0 (.free exA) exA :: h0))).live (exA + 112) = none := by
  have hs : SlotAt (mtRo true) exA 0 7 0 0 := ⟨by decide, by decide, by decide, by decide +kernel, by decide +kernel, by decide +kernel⟩
  have key : ((runC (mtRo true) (fun t => t % 4) [.inv 0 (.malloc 100) 0, .go 0 1 0, .inv 4 (.malloc 100) 0, .go 0 99 0, .go 4 99 0, .ret 4, .ret 0] []
      ⟨exSt, fun _ => ⟨0, false⟩, fun _ => none, fun _ => exSt⟩).any fun x =>
      decide (x.1 = [.ret 0 (.malloc 100) (.ptr exA), .ret 4 (.malloc 100) (.ptr (exA + 112)), .inv 4 (.malloc 100) 0, .inv 0 (.malloc 100) 0]) &&
      decide (usableB (mtRo true) x.2.σ exA = some 104) && decide (usableB (mtRo true) x.2.σ (exA + 112) = some 104) &&
      ((runQ (mtRo true) (fun t => t % 4) (usedB 0 7 0 0) [.inv 0 (.free exA) exA, .go 0 1 0, .inv 4 (.realloc (exA + 112) 500) (exA + 112), .go 4 1 0, .go 4 1 0, .go 0 1 0, .go 0 1 0, .go 0 1 0,
        .go 0 1 0, .go 0 1 0, .go 0 1 0, .go 0 1 0, .go 0 1 0, .ret 0] x.1 x.2).any fun y =>
        decide (y.1 = [.ret 0 (.free exA) .unit, .inv 4 (.realloc (exA + 112) 500) (exA + 112), .inv 0 (.free exA) exA] ++ x.1) && usedB 0 7 0 1 y.2.σ)) = true := by decide +kernel
  rw [Option.any_eq_true] at key
  obtain ⟨⟨h, s⟩, k1, k2⟩ := key
  simp only [Bool.and_eq_true, decide_eq_true_eq, Option.any_eq_true] at k2
  obtain ⟨⟨⟨rfl, k3⟩, k4⟩, ⟨h', s'⟩, k5, k6, k7⟩ := k2
  simp only at k6
  subst k6
  have r : CReach (mtCfg true) (mtRo true) (fun t => t % 4) true _ s := runC_reach (.init (mtInit true) fun _ => rfl) k1
  obtain ⟨L0, T0, r0⟩ := r.tags (mtGood true) rfl (fun t => t == 0)
  obtain ⟨L2, T, q, hn⟩ := runQ_tags (mtGood true) hs r0 k5
  have hs1 : SlotAt (mtRo true) (exA + 112) 0 7 0 1 := ⟨by decide, by decide, by decide, by decide +kernel, by decide +kernel, by decide +kernel⟩
  have r1 := r0.steps q
  obtain ⟨hro, _⟩ := r.roOk (mtGood true)
  obtain ⟨w, _, I⟩ := r1.creach.inv (mtGood true)
  refine ⟨[.inv 4 (.realloc (exA + 112) 500) (exA + 112)], [], _, s, s', L0, L2, T0, T, r0, sysOk_zero, by decide, by decide, hs.tagged hro, ?_, usableB_usable k3, usableB_usable k4,
    q, by simp [Goes], rfl, by rw [hn]; decide, (hs.slotBytes hro).mpr (by decide +kernel), ?_, hs1.tagged hro, by decide⟩
  · refine ⟨0, 7, 0, by decide, by decide, by decide +kernel, ?_⟩
    rintro y (rfl | rfl)
    · decide +kernel
    · decide +kernel
  · rw [← I.σ, ← usedB_iff hro I.inv hs1, I.σ]
    exact k7

end HM
