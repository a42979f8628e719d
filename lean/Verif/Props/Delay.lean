import Verif.Props.Placement

/-! Random delay (C69): which of the freed blocks held back by the quarantine may be reused next is decided by the random number generator. -/

namespace HM

/-- The freed block at `q` is in the first, random stage of the quarantine for class `c` of arena `a`. -/
def Waiting (s : Sys) (a c q : Nat) : Prop := ∃ j, (s.σ.sc a c).qrand j = q

theorem drawsFor_card_any {n k : Nat} (h0 : 0 < n) (hs : n < 65536) (hk : k < n) :
    65536 / n ≤ (drawsFor n k).card ∧ (drawsFor n k).card ≤ 65536 / n + 1 := by
  have h := c30_u16_near_uniform_partial n k h0 (by omega) hk
  have e : drawsFor n k = (Finset.range (2 ^ 16)).filter fun x => (fun r => (getRandomU16Uniform n [r]).isSome) x = true ∧
      (fun r => match getRandomU16Uniform n [r] with | some (x, _) => x | none => 0) x = k := by
    unfold drawsFor
    refine Finset.filter_congr fun x hx => ?_
    rw [Finset.mem_range] at hx
    simp only [c30_u16_single_draw n x [] (by omega) hx, Option.isSome_some, true_and]
    norm_num
  rw [e]
  exact h

theorem SC.upd_qr (c : SC) (m : Nat) (f : Slab → Slab) : (c.upd m f).qrand = c.qrand ∧ (c.upd m f).qqueue = c.qqueue := ⟨rfl, rfl⟩

theorem setPrev_qr (c : SC) (o v : Option Nat) : (c.setPrev o v).qrand = c.qrand ∧ (c.setPrev o v).qqueue = c.qqueue := by
  unfold SC.setPrev
  split <;> exact ⟨rfl, rfl⟩

theorem unlinkPartial_qr (c : SC) (m : Nat) : (c.unlinkPartial m).qrand = c.qrand ∧ (c.unlinkPartial m).qqueue = c.qqueue := by
  unfold SC.unlinkPartial
  simp only [SC.upd_qr, setPrev_qr]
  split <;> exact ⟨rfl, rfl⟩

theorem linkPartial_qr (c : SC) (n m : Nat) : (c.linkPartial n m).qrand = c.qrand ∧ (c.linkPartial n m).qqueue = c.qqueue := by
  unfold SC.linkPartial
  split
  · simp only [setPrev_qr, SC.upd_qr, and_self]
  · exact ⟨rfl, rfl⟩

theorem enqueueFreeSlab_qr {g : Cfg} {d m : Nat} {c c' : SC} (h : enqueueFreeSlab g d c m = .ok c') : c'.qrand = c.qrand ∧ c'.qqueue = c.qqueue := by
  unfold enqueueFreeSlab at h
  split at h
  · cases h
  · simp only at h
    split at h
    · cases h; exact ⟨rfl, rfl⟩
    · cases h
      simp only
      split <;> exact ⟨rfl, rfl⟩

theorem statsSlabDealloc_qr (g : Cfg) (c : SC) (n : Nat) : (c.statsSlabDealloc g n).qrand = c.qrand ∧ (c.statsSlabDealloc g n).qqueue = c.qqueue := by
  unfold SC.statsSlabDealloc
  split <;> exact ⟨rfl, rfl⟩

theorem statsDealloc_qr (g : Cfg) (c : SC) (n : Nat) : (c.statsDealloc g n).qrand = c.qrand ∧ (c.statsDealloc g n).qqueue = c.qqueue ∧
    (c.statsDealloc g n).slabs = c.slabs := by
  unfold SC.statsDealloc
  split <;> exact ⟨rfl, rfl, rfl⟩

theorem releaseSlot_qr {g : Cfg} {base cls m k : Nat} {ch : Choice} {c c' : SC} {vm vm' : Vm} {e e' : Errno}
    (h : releaseSlot g base cls ch c vm e m k = .ok (c', vm', e')) : c'.qrand = c.qrand ∧ c'.qqueue = c.qqueue := by
  have h0 : ((c.linkPartial (g.slots cls) m).clearUsed m k).qrand = c.qrand ∧ ((c.linkPartial (g.slots cls) m).clearUsed m k).qqueue = c.qqueue :=
    linkPartial_qr c _ _
  unfold releaseSlot at h
  generalize (c.linkPartial (g.slots cls) m).clearUsed m k = c1 at h h0
  simp only at h
  split at h
  · unfold retireSlab at h
    simp only at h
    have h1 := unlinkPartial_qr c1 m
    generalize c1.unlinkPartial m = c2 at h h1
    split at h
    · simp only [Res.bind_eq_ok, Prod.exists] at h
      obtain ⟨vm1, b, _, h⟩ := h
      split at h
      · simp only [Res.bind_eq_ok] at h
        obtain ⟨_, _, h⟩ := h
        cases h
        exact ⟨h1.1.trans h0.1, h1.2.trans h0.2⟩
      · simp only [Res.bind_eq_ok] at h
        obtain ⟨c3, h2, h⟩ := h
        cases h
        have h3 := enqueueFreeSlab_qr h2
        have h4 := statsSlabDealloc_qr g c2 (g.slabSize cls)
        exact ⟨h3.1.trans (h4.1.trans (h1.1.trans h0.1)), h3.2.trans (h4.2.trans (h1.2.trans h0.2))⟩
    · cases h
      exact ⟨h1.1.trans h0.1, h1.2.trans h0.2⟩
  · cases h; exact h0

/-- The first stage of the quarantine after a slot has been freed. -/
theorem deallocateSmall_qrand {g : Cfg} {base cls p : Nat} {ex : Option Nat} {ch : Choice} {c c' : SC} {vm vm' : Vm} {e e' : Errno}
    (hq : g.slabQRandom ≠ 0) (h : deallocateSmall g base cls p ex ch c vm e = .ok (c', vm', e')) :
    ∃ m k, p = slotAddr g base cls m k ∧ c.used m k = true ∧ c.quar m k = false ∧
      c'.qrand = setAt c.qrand (u16Uniform (ch.u16 1) (lenR g cls)) p ∧ (g.slabQQueue = 0 → c'.qqueue = c.qqueue) := by
  unfold deallocateSmall at h
  split at h
  · cases h
  obtain ⟨e1, e2, e3⟩ := statsDealloc_qr g c (g.slotSize cls)
  generalize c.statsDealloc g (g.slotSize cls) = c1 at h e1 e2 e3
  simp only [Res.bind_eq_ok, Prod.exists] at h
  obtain ⟨m, k, h1, vm1, _, c2, o, h2, h⟩ := h
  have hr : c'.qrand = c2.qrand ∧ c'.qqueue = c2.qqueue := by
    cases o with
    | none => cases h; exact ⟨rfl, rfl⟩
    | some x => exact releaseSlot_qr h
  have hs : p = slotAddr g base cls m k ∧ c.used m k = true := by
    unfold findSlot at h1
    simp only [Res.bind_eq_ok] at h1
    obtain ⟨m', _, h1⟩ := h1
    split at h1
    · cases h1
    rename_i h3
    split at h1
    · cases h1
    split at h1
    · cases h1
    rename_i h4
    cases h1
    rw [e3] at h4
    refine ⟨(Decidable.not_not.mp h3).symm, ?_⟩
    unfold SC.used
    rw [← Bitmap.get_eq]
    simpa using h4
  refine ⟨m, k, hs.1, hs.2, ?_⟩
  rw [hr.1, hr.2]
  unfold quarantineSlot at h2
  rw [if_neg (by unfold Cfg.slabQuarantine; simp; omega)] at h2
  split at h2
  · cases h2
  rename_i h3
  rw [e3, Bool.not_eq_true, Bitmap.get_eq] at h3
  refine ⟨h3, ?_⟩
  unfold pushRandom pushQueue leaveQuarantine at h2
  simp only [if_neg hq, Res.bind_eq_ok, Prod.exists] at h2
  obtain ⟨c3, p3, h4, h2⟩ := h2
  split at h4
  · cases h4
  cases h4
  split at h2
  · cases h2
    exact ⟨by rw [← e1]; rfl, fun _ => e2⟩
  · simp only [Res.bind_eq_ok, Prod.exists] at h2
    obtain ⟨c4, p4, h5, h2⟩ := h2
    have h6 : c4.qrand = setAt c.qrand (u16Uniform (ch.u16 1) (lenR g cls)) p ∧ (g.slabQQueue = 0 → c4.qqueue = c.qqueue) := by
      split at h5
      · cases h5
        exact ⟨by rw [← e1]; rfl, fun _ => e2⟩
      · rename_i h7
        split at h5
        · cases h5
        cases h5
        exact ⟨by rw [← e1]; rfl, fun h => absurd h h7⟩
    split at h2
    · cases h2; exact h6
    · simp only [Res.bind_eq_ok, Prod.exists] at h2
      obtain ⟨c5, m5, k5, ⟨m6, _, h7⟩, h2⟩ := h2
      split at h7
      · cases h7
      cases h7
      cases h2
      exact h6

/-- What `free` of a small block does, in terms of its critical section. -/
theorem call_free_small {ro : Ro} {ar : Nat → Nat} {s s' : Sys} {t p : Nat} {x : Ret} {chs : Nat → Choice} (h0 : p ≠ 0) (hp : ro.inSlab p = true)
    (h : s.call ro ar t (.free p) chs = .ok (s', x)) :
    ∃ vm e, deallocateSmall ro.g (ro.regionStart (ro.sizeClassOf p).1 (ro.sizeClassOf p).2) (ro.sizeClassOf p).2 p none (chs 1)
      (s.σ.sc (ro.sizeClassOf p).1 (ro.sizeClassOf p).2) s.σ.vm (s.tl t).errno = .ok (s'.σ.sc (ro.sizeClassOf p).1 (ro.sizeClassOf p).2, vm, e) := by
  unfold Sys.call Call.prog hFree smallFree unsealMeta sealMeta critical at h
  simp only [if_neg h0, if_pos hp, bind, pure, Prog.one, Prog.bind, Prog.run, Bool.not_true, Bool.and_false, Bool.false_eq_true, if_false] at h
  split at h <;> try cases h
  rename_i h1
  split at h1 <;> try cases h1
  rename_i h2
  split at h2 <;> try cases h2
  rename_i h3
  split at h3 <;> try cases h3
  split at h3
  · next h6 =>
      cases h3
      simp only [and_self, if_true]
      exact ⟨_, _, h6⟩
  all_goals cases h3

/-- A block waits at one place only. -/
theorem Fits.waits {ro : Ro} {calm : Bool} {h : List Ev} {s : Sys} {w : World} (f : Fits ro calm h s w)
    {a c : Nat} (ha : a < ro.g.nArena) (hc : c < nClasses ro.g) {j q : Nat} (hq : (s.σ.sc a c).qrand j = q) (h0 : q ≠ 0) :
    j < lenR ro.g c ∧ (∀ j', (s.σ.sc a c).qrand j' = q → j' = j) ∧
      ∃ i k, k < ro.g.slots c ∧ q = slotAddr ro.g (ro.regionStart a c) c i k ∧ (s.σ.sc a c).quar i k = true := by
  obtain ⟨P, E, F, hi⟩ := f.linked.inv.cls a c ha hc
  rw [← f.σ] at hq ⊢
  obtain ⟨i, k, h1⟩ := hi.qarr.r2 j (by rw [hq]; exact h0)
  obtain ⟨h2, h3⟩ := hi.qarr.r1 i k j h1
  have hk := hi.qarr.lt hi.bits (i := i) (k := k) (by rw [h1]; simp)
  refine ⟨h3, fun j' hj' => ?_, i, k, hk, hq.symm.trans h2, (hi.qarr.bit i k).mpr (by rw [h1]; simp)⟩
  obtain ⟨i', k', h4⟩ := hi.qarr.r2 j' (by rw [hj']; exact h0)
  obtain ⟨h5, _⟩ := hi.qarr.r1 i' k' j' h4
  have hk' := hi.qarr.lt hi.bits (i := i') (k := k') (by rw [h4]; simp)
  obtain ⟨rfl, rfl⟩ := slotAddr_inj hc hk hk' (h2.symm.trans (hq.trans (hj'.symm.trans h5)))
  rw [h1] at h4
  injection h4 with h4
  exact h4.symm

/-- The choices `chs`, except that the bounded random number of a quarantine for regions is `v`. -/
def regionDraw (chs : Nat → Choice) (v : Nat) : Nat → Choice := fun j => { chs j with guard := v }

/-- What holds after every run of a program in which the bounded random numbers are `v`. -/
def Prog.Ends {α : Type} (v : Nat) (P : Prog α) (σ : St) (tl : Tl) (Q : St → Tl → α → Prop) : Prop :=
  ∀ chs σ' tl' a, P.run (regionDraw chs v) σ tl = .ok (σ', tl', a) → Q σ' tl' a

theorem Prog.Ends.ret {α : Type} {v : Nat} {a : α} {σ : St} {tl : Tl} {Q : St → Tl → α → Prop} (h : Q σ tl a) : (Prog.ret a).Ends v σ tl Q := by
  intro chs σ' tl' b e; cases e; exact h

theorem Prog.Ends.act {α β : Type} {v : Nat} {l : Option Sect} {f : Choice → St → Tl → Res (St × Tl × β)} {k : β → Prog α} {σ : St} {tl : Tl} {Q : St → Tl → α → Prop}
    (h : ∀ ch σ' tl' b, ch.guard = v → f ch σ tl = .ok (σ', tl', b) → (k b).Ends v σ' tl' Q) : (Prog.act (l := l) f k).Ends v σ tl Q := by
  intro chs σ' tl' a e
  unfold Prog.run at e
  split at e <;> try cases e
  rename_i h1
  exact h (regionDraw chs v 0) _ _ _ rfl h1 (fun n => chs (n + 1)) _ _ _ e

theorem Prog.Ends.bind {α β : Type} {v : Nat} {P : Prog α} {k : α → Prog β} {σ : St} {tl : Tl} {Q : St → Tl → β → Prop}
    (h : P.Ends v σ tl fun σ tl a => (k a).Ends v σ tl Q) : (P >>= k).Ends v σ tl Q := by
  show (P.bind k).Ends v σ tl Q
  induction P generalizing σ tl with
  | ret a => exact h (fun _ => Choice.quiet) σ tl a rfl
  | act f k' ih =>
    refine Prog.Ends.act fun ch σ' tl' b hv hf => ih b fun chs σ2 tl2 a e => ?_
    refine h (fun n => match n with | 0 => ch | n + 1 => chs n) σ2 tl2 a ?_
    unfold Prog.run
    have : regionDraw (fun n => match n with | 0 => ch | n + 1 => chs n) v 0 = ch := by
      unfold regionDraw; rw [← hv]
    rw [this, hf]
    exact e

theorem Prog.Ends.weaken {α : Type} {v : Nat} {P : Prog α} {σ : St} {tl : Tl} {Q Q' : St → Tl → α → Prop} (h : P.Ends v σ tl Q) (hq : ∀ σ tl a, Q σ tl a → Q' σ tl a) :
    P.Ends v σ tl Q' := fun chs σ' tl' a e => hq _ _ _ (h chs σ' tl' a e)

theorem sysCall_qr {label : Bool} {f : Choice → Vm → Res (Vm × Bool)} {v : Nat} {σ : St} {tl : Tl} : (sysCall label f).Ends v σ tl fun σ' _ _ => σ'.qr = σ.qr ∧ σ'.rt = σ.rt := by
  refine Prog.Ends.act fun ch σ' tl' b _ hf => Prog.Ends.ret ?_
  split at hf <;> cases hf
  exact ⟨rfl, rfl⟩

theorem critical_ends {β : Type} {ro : Ro} {l : Sect} {f : Choice → St → Errno → Res (St × Errno × β)} {v : Nat} {σ : St} {tl : Tl} {Q : St → Tl → β → Prop}
    (h : ∀ ch σ' e' b, ch.guard = v → f ch σ tl.errno = .ok (σ', e', b) → ∀ tl', Q σ' tl' b) : (critical ro l f).Ends v σ tl Q := by
  refine Prog.Ends.act fun ch σ' tl' b hv hf => Prog.Ends.ret ?_
  split at hf
  · cases hf
  · split at hf <;> cases hf
    rename_i h1
    exact h ch _ _ _ hv h1 _

/-- The first stage of the quarantine for regions after a large block has been freed. -/
theorem quarantineDeallocatePages_qr {ro : Ro} {p size guard v : Nat} {σ : St} {tl : Tl} (hq : ro.g.regionQRandom ≠ 0) (hsk : size < ro.g.regionQSkip) :
    (quarantineDeallocatePages ro p size guard).Ends v σ tl fun σ' _ _ => σ'.qr = setAt σ.qr (v % ro.g.regionQRandom) (p - guard, size + guard * 2) := by
  have hrq : ro.g.regionQuarantine = true := by unfold Cfg.regionQuarantine; simp; omega
  unfold quarantineDeallocatePages
  rw [if_neg (by simp [hrq]; omega)]
  have last : ∀ σ1 tl1, σ1.qr = σ.qr → (quarantineRegion ro (p - guard, size + guard * 2) >>= fun o => match o with
      | none => (return () : Prog Unit)
      | some t => do
        let _ ← sysUnmap t.1 t.2
        return ()).Ends v σ1 tl1 fun σ' _ _ => σ'.qr = setAt σ.qr (v % ro.g.regionQRandom) (p - guard, size + guard * 2) := by
    intro σ1 tl1 e1
    refine Prog.Ends.bind (critical_ends fun ch σ2 e2 o hv hf tl2 => ?_)
    have h2 : σ2.qr = setAt σ.qr (v % ro.g.regionQRandom) (p - guard, size + guard * 2) := by
      unfold pushRegionRandom pushRegionQueue at hf
      rw [if_neg hq, hv] at hf
      rw [← e1]
      simp only at hf
      split at hf
      · cases hf; rfl
      · cases hf
        split <;> rfl
    cases o with
    | none => exact Prog.Ends.ret h2
    | some x =>
      refine Prog.Ends.bind (sysCall_qr.weaken fun σ3 tl3 a h3 => Prog.Ends.ret (h3.1.trans h2))
  refine Prog.Ends.bind (sysCall_qr.weaken fun σ1 tl1 b h1 => ?_)
  split
  · refine Prog.Ends.bind (sysCall_qr.weaken fun σ2 tl2 _ h2 => ?_)
    exact last _ _ (h2.1.trans h1.1)
  · exact last _ _ h1.1

theorem call_free_large {ro : Ro} {ar : Nat → Nat} {s s' : Sys} {t p v i : Nat} {r : RegionMeta} {x : Ret} {chs : Nat → Choice} (h0 : p ≠ 0) (hp : ro.inSlab p = false)
    (hr : lookupRegion s.σ.rt p = .ok (some (i, r))) (hq : ro.g.regionQRandom ≠ 0) (hsk : r.size < ro.g.regionQSkip)
    (h : s.call ro ar t (.free p) (regionDraw chs v) = .ok (s', x)) :
    s'.σ.qr = setAt s.σ.qr (v % ro.g.regionQRandom) (p - r.guard, r.size + r.guard * 2) := by
  have hE : (hFree ro p).Ends v s.σ (s.tl t) fun σ' _ _ => σ'.qr = setAt s.σ.qr (v % ro.g.regionQRandom) (p - r.guard, r.size + r.guard * 2) := by
    unfold hFree
    rw [if_neg h0, hp]
    simp only [Bool.false_eq_true, if_false]
    refine Prog.Ends.bind (Prog.Ends.act fun ch σ1 tl1 saved _ e1 => Prog.Ends.ret ?_)
    cases e1
    unfold deallocateLarge
    refine Prog.Ends.bind (Prog.Ends.bind (Prog.Ends.act fun ch σ1 tl1 _ _ e1 => Prog.Ends.ret ?_))
    cases e1
    refine Prog.Ends.bind (critical_ends fun ch σ1 e1 y _ hf tl1 => ?_)
    rw [hr] at hf
    simp only [Option.any_none, Bool.false_eq_true, if_false] at hf
    split at hf <;> cases hf
    refine (quarantineDeallocatePages_qr hq hsk).weaken fun σ2 tl2 _ h2 => ?_
    refine Prog.Ends.bind (Prog.Ends.act fun ch σ3 tl3 _ _ e3 => Prog.Ends.ret ?_)
    cases e3
    refine Prog.Ends.act fun ch σ3 tl3 _ _ e3 => Prog.Ends.ret ?_
    cases e3
    exact h2
  have hE2 : ((Call.free p).prog ro (ar t)).Ends v s.σ (s.tl t) fun σ' _ _ => σ'.qr = setAt s.σ.qr (v % ro.g.regionQRandom) (p - r.guard, r.size + r.guard * 2) :=
    Prog.Ends.bind (hE.weaken fun σ1 tl1 _ h1 => Prog.Ends.ret h1)
  unfold Sys.call at h
  split at h <;> cases h
  rename_i h1
  exact hE2 _ _ _ _ h1

section
variable {g : Cfg} {ro : Ro} {ar : Nat → Nat} {calm : Bool} {D : Client} {h : List Ev} {s s' : Sys} {t : Nat} {chs : Nat → Choice}

/-- `free` of a slot puts it into the first stage of the quarantine, at the place given by the random number. -/
theorem free_places (hro : RoOk ro) (hq : ro.g.slabQRandom ≠ 0) {a c i k p : Nat} {x : Ret} (ha : a < ro.g.nArena) (hc : c < nClasses ro.g)
    (hi : i < ro.g.metaMax c) (hk : k < ro.g.slots c) (hp : p = slotAddr ro.g (ro.regionStart a c) c i k)
    (hx : s.call ro ar t (.free p) chs = .ok (s', x)) :
    p ≠ 0 ∧ (∃ m k', p = slotAddr ro.g (ro.regionStart a c) c m k' ∧ (s.σ.sc a c).used m k' = true ∧ (s.σ.sc a c).quar m k' = false) ∧
      (s'.σ.sc a c).qrand = setAt (s.σ.sc a c).qrand (u16Uniform ((chs 1).u16 1) (lenR ro.g c)) p ∧
      (ro.g.slabQQueue = 0 → (s'.σ.sc a c).qqueue = (s.σ.sc a c).qqueue) := by
  have hin : inRange (ro.cell a c) ro.g.realClassRegionSize p := by
    refine hro.region_cell ha hc ?_
    rw [hp]
    refine slot_in_region hro ha hc hi hk ?_
    have := (classGeo ro.g hc).size_ge
    unfold inRange; omega
  have hp0 : p ≠ 0 := by rw [hp]; exact slotAddr_pos (hro.base ha hc) i k
  have hsc := hro.sizeClassOf ha hc hin
  obtain ⟨vm, e, h1⟩ := call_free_small hp0 (hro.cell_slab ha hc hin) hx
  rw [hsc] at h1
  obtain ⟨m, k', h2, h3, h4, h5, h6⟩ := deallocateSmall_qrand hq h1
  exact ⟨hp0, ⟨m, k', h2, h3, h4⟩, h5, h6⟩

/-- A block that is freed was not waiting. -/
theorem free_waits (hro : RoOk ro) {w : World} (f : Fits ro calm h s w) (hq : ro.g.slabQRandom ≠ 0) {a c i k p : Nat} {x : Ret} (ha : a < ro.g.nArena) (hc : c < nClasses ro.g)
    (hi : i < ro.g.metaMax c) (hk : k < ro.g.slots c) (hp : p = slotAddr ro.g (ro.regionStart a c) c i k)
    (hx : s.call ro ar t (.free p) chs = .ok (s', x)) (j : Nat) : (s.σ.sc a c).qrand j ≠ p := by
  intro hj
  obtain ⟨hp0, ⟨m, k', h2, h3, h4⟩, _⟩ := free_places hro hq ha hc hi hk hp hx
  obtain ⟨_, _, i1, k1, h7, h8, h9⟩ := f.waits ha hc hj hp0
  obtain ⟨P, E, F, hinv⟩ := f.linked.inv.cls a c ha hc
  obtain ⟨rfl, rfl⟩ := slotAddr_inj hc h7 (hinv.bits.used_lt (by rw [f.σ]; exact h3)) (h8.symm.trans h2)
  rw [h4] at h9
  cases h9

open Classical in
/-- C69, for programs with or without memory errors. Suppose the quarantine has a random stage, of `R` places for class `c` of arena `a`, and `R` is less than 65536. The
65536 values of the 16-bit random number are shared among the blocks waiting there: each has its own share, of `65536 / R` values or one more.
If `free` of a block of this class returns, the block then waits, and
the waiting block whose share contains the random number drawn, and only this block, has left; without a second stage
it is not in the quarantine any more. -/
theorem c69_delay_any_partial (hg : Good g ar) (r : Reach g ro ar calm D h s) (hq : g.slabQRandom ≠ 0) {a c : Nat} (ha : a < g.nArena) (hc : c < nClasses g)
    (hR : lenR g c < 65536) :
    ∃ share : Nat → Finset Nat,
      (∀ q, q ≠ 0 → Waiting s a c q → 65536 / lenR g c ≤ (share q).card ∧ (share q).card ≤ 65536 / lenR g c + 1 ∧ ∀ v ∈ share q, v < 65536) ∧
      (∀ q q', q ≠ q' → Disjoint (share q) (share q')) ∧
      ∀ t i k chs v s' x, i < g.metaMax c → k < g.slots c → v < 65536 →
        s.call ro ar t (.free (ro.regionStart a c + i * g.slabSize c + k * g.slotSize c)) (redraw chs v) = .ok (s', x) →
        Waiting s' a c (ro.regionStart a c + i * g.slabSize c + k * g.slotSize c) ∧
        ∀ q, q ≠ 0 → Waiting s a c q → (Waiting s' a c q ↔ v ∉ share q) ∧ (g.slabQQueue = 0 → (HeldBack s' a c q ↔ v ∉ share q)) := by
  obtain ⟨hro, rfl⟩ := r.roOk hg
  obtain ⟨w, f, _⟩ := r.fits hg
  have hpos : 0 < lenR ro.g c := len_pos hc hg.valid.slabQRandom hq
  let share : Nat → Finset Nat := fun q => if h : q ≠ 0 ∧ Waiting s a c q then drawsFor (lenR ro.g c) h.2.choose else ∅
  have hsh : ∀ q j, q ≠ 0 → (s.σ.sc a c).qrand j = q → share q = drawsFor (lenR ro.g c) j := by
    intro q j h0 hj
    have hw : q ≠ 0 ∧ Waiting s a c q := ⟨h0, j, hj⟩
    show (if h : _ then _ else _) = _
    rw [dif_pos hw, (f.waits ha hc hj h0).2.1 _ hw.2.choose_spec]
  refine ⟨share, ?_, ?_, ?_⟩
  · rintro q h0 ⟨j, hj⟩
    rw [hsh q j h0 hj]
    obtain ⟨b1, b2⟩ := drawsFor_card_any hpos hR (f.waits ha hc hj h0).1
    refine ⟨b1, b2, fun v hv => ?_⟩
    unfold drawsFor at hv
    rw [Finset.mem_filter, Finset.mem_range] at hv
    exact hv.1
  · intro q q' hne
    by_cases h1 : q ≠ 0 ∧ Waiting s a c q
    · by_cases h2 : q' ≠ 0 ∧ Waiting s a c q'
      · obtain ⟨j, hj⟩ := h1.2
        obtain ⟨j', hj'⟩ := h2.2
        rw [hsh q j h1.1 hj, hsh q' j' h2.1 hj', Finset.disjoint_left]
        intro v hv hv'
        unfold drawsFor at hv hv'
        rw [Finset.mem_filter] at hv hv'
        have e : j = j' := hv.2.symm.trans hv'.2
        exact hne (hj.symm.trans (by rw [e]; exact hj'))
      · have : share q' = ∅ := dif_neg h2
        rw [this]; exact Finset.disjoint_empty_right _
    · have : share q = ∅ := dif_neg h1
      rw [this]; exact Finset.disjoint_empty_left _
  · intro t i k chs v s' x hi hk hv hx
    obtain ⟨hp0, _, h1, h2⟩ := free_places hro hq ha hc hi hk rfl hx
    have hnp := free_waits hro f hq ha hc hi hk rfl hx
    have hu : u16Uniform ((redraw chs v 1).u16 1) (lenR ro.g c) = v * lenR ro.g c / 65536 := by
      show u16Uniform v _ = _
      unfold u16Uniform
      rw [Nat.mod_eq_of_lt hv, Nat.mod_eq_of_lt hR]
    rw [hu] at h1
    refine ⟨⟨_, by rw [h1]; exact if_pos rfl⟩, ?_⟩
    rintro q h0 ⟨j, hj⟩
    have hqp : q ≠ ro.regionStart a c + i * ro.g.slabSize c + k * ro.g.slotSize c := fun e => hnp j (hj.trans e)
    have key : Waiting s' a c q ↔ v ∉ share q := by
      have hm : v ∈ share q ↔ v * lenR ro.g c / 65536 = j := by
        rw [hsh q j h0 hj]
        unfold drawsFor
        rw [Finset.mem_filter, Finset.mem_range]
        exact ⟨fun h => h.2, fun h => ⟨hv, h⟩⟩
      rw [hm]
      constructor
      · rintro ⟨j', hj'⟩ e
        rw [h1] at hj'
        unfold setAt at hj'
        split at hj'
        · exact hqp hj'.symm
        · rename_i hne
          exact hne (((f.waits ha hc hj h0).2.1 j' hj').trans e.symm)
      · intro hne
        refine ⟨j, ?_⟩
        rw [h1]
        unfold setAt
        rw [if_neg fun e => hne e.symm]
        exact hj
    refine ⟨key, fun hz => ?_⟩
    rw [← key]
    constructor
    · rintro ⟨j', hj' | hj'⟩
      · exact ⟨j', hj'⟩
      · exfalso
        rw [h2 hz, ← f.σ] at hj'
        obtain ⟨P, E, F, hi⟩ := f.linked.inv.cls a c ha hc
        obtain ⟨i2, k2, h3⟩ := hi.qarr.q2 j' (by rw [hj']; exact h0)
        have := (hi.qarr.q1 i2 k2 j' h3).2
        rw [hz] at this
        simp [shl64] at this
    · rintro ⟨j', hj'⟩
      exact ⟨j', Or.inl hj'⟩

/-- C69. The same for programs without memory errors, where the call returns, whatever the random number: the block that waits at
the place drawn, if any, leaves the first stage, and each block that waits has its own share of the random numbers. -/
theorem c69_delay_partial (hg : Good g ar) (r : Reach g ro ar calm (goodClient ro) h s) (hq : g.slabQRandom ≠ 0) {a c i k : Nat} (ha : a < g.nArena) (hc : c < nClasses g)
    (hR : lenR g c < 65536) (hi : i < g.metaMax c) (hk : k < g.slots c) (hl : (live h (ro.regionStart a c + i * g.slabSize c + k * g.slotSize c)).isSome)
    (he : ∀ n, Env calm (chs n)) (hsys : OnlyEnomem chs) :
    ∃ share : Nat → Finset Nat,
      (∀ q, q ≠ 0 → Waiting s a c q → 65536 / lenR g c ≤ (share q).card ∧ (share q).card ≤ 65536 / lenR g c + 1 ∧ ∀ v ∈ share q, v < 65536) ∧
      (∀ q q', q ≠ q' → Disjoint (share q) (share q')) ∧
      ∀ v < 65536, ∃ s' x, s.call ro ar t (.free (ro.regionStart a c + i * g.slabSize c + k * g.slotSize c)) (redraw chs v) = .ok (s', x) ∧
        Waiting s' a c (ro.regionStart a c + i * g.slabSize c + k * g.slotSize c) ∧
        ∀ q, q ≠ 0 → Waiting s a c q → (Waiting s' a c q ↔ v ∉ share q) ∧ (g.slabQQueue = 0 → (HeldBack s' a c q ↔ v ∉ share q)) := by
  obtain ⟨share, h1, h2, h3⟩ := c69_delay_any_partial hg r hq ha hc hR
  refine ⟨share, h1, h2, fun v hv => ?_⟩
  have hret : ∃ s' x, s.call ro ar t (.free (ro.regionStart a c + i * g.slabSize c + k * g.slotSize c)) (redraw chs v) = .ok (s', x) := by
    refine c05_no_abort hg r ?_ (fun j => he j) (by exact hsys) (Or.inr hl)
    obtain ⟨hro, rfl⟩ := r.roOk hg
    have h4 : inRange (ro.regionStart a c) ro.g.classRegionSize (slotAddr ro.g (ro.regionStart a c) c i k) := by
      refine slot_in_region hro ha hc hi hk ?_
      have := (classGeo ro.g hc).size_ge
      unfold inRange; omega
    have h5 := (hro.base ha hc).hi
    show slotAddr ro.g (ro.regionStart a c) c i k < W64
    unfold inRange at h4
    omega
  obtain ⟨s', x, hx⟩ := hret
  exact ⟨s', x, hx, h3 t i k chs v s' x hi hk hv hx⟩

/-- C69. What the code does if the number of places is a multiple of 65536: the random number does not matter; the block freed before leaves. -/
theorem c69_not_random (hg : Good g ar) (r : Reach g ro ar calm D h s) (hq : g.slabQRandom ≠ 0) {a c : Nat} (ha : a < g.nArena) (hc : c < nClasses g)
    (hR : lenR g c % 65536 = 0) {i k i' k' t' : Nat} {x x' : Ret} {chs' : Nat → Choice} {s1 s2 : Sys} (hi : i < g.metaMax c) (hk : k < g.slots c) (hi' : i' < g.metaMax c) (hk' : k' < g.slots c)
    (hne : ¬ (i = i' ∧ k = k'))
    (h1 : s.call ro ar t (.free (ro.regionStart a c + i * g.slabSize c + k * g.slotSize c)) chs = .ok (s1, x))
    (h2 : s1.call ro ar t' (.free (ro.regionStart a c + i' * g.slabSize c + k' * g.slotSize c)) chs' = .ok (s2, x')) :
    Waiting s1 a c (ro.regionStart a c + i * g.slabSize c + k * g.slotSize c) ∧ ¬ Waiting s2 a c (ro.regionStart a c + i * g.slabSize c + k * g.slotSize c) := by
  obtain ⟨hro, rfl⟩ := r.roOk hg
  obtain ⟨w, f, _⟩ := r.fits hg
  have hu : ∀ v, u16Uniform v (lenR ro.g c) = 0 := fun v => by unfold u16Uniform; rw [hR]; simp
  obtain ⟨hp0, _, h3, _⟩ := free_places hro hq ha hc hi hk rfl h1
  have hnp := free_waits hro f hq ha hc hi hk rfl h1
  obtain ⟨_, _, h4, _⟩ := free_places hro hq ha hc hi' hk' rfl h2
  rw [hu] at h3 h4
  refine ⟨⟨0, by rw [h3]; exact if_pos rfl⟩, ?_⟩
  rintro ⟨j, hj⟩
  rw [h4, h3] at hj
  unfold setAt at hj
  split at hj
  · exact hne (slotAddr_inj hc hk hk' hj.symm)
  · exact hnp j hj

/-- A freed large block is in the first, random stage of the quarantine, with its guard pages: `n` bytes from address `q`. -/
def RegionWaiting (g : Cfg) (s : Sys) (q n : Nat) : Prop := ∃ j < g.regionQRandom, s.σ.qr j = (q, n)

open Classical in
/-- C69, for large blocks below the threshold of the quarantine, in programs with or without memory errors: each waiting block is at a place of its own among the `R`
places of the first stage. If `free` returns, the freed block then waits with its guard pages, and the block
that was at the place drawn, and only this one, has left. The number drawn is uniform (C30). -/
theorem c69_large (hg : Good g ar) (r : Reach g ro ar calm D h s) (hq : g.regionQRandom ≠ 0) :
    ∃ place : Nat → Nat,
      (∀ q n, q ≠ 0 → RegionWaiting g s q n → place q < g.regionQRandom) ∧
      (∀ q n q' n', q ≠ 0 → RegionWaiting g s q n → q' ≠ 0 → RegionWaiting g s q' n' → place q = place q' → q = q' ∧ n = n') ∧
      ∀ t p u chs v s' x, (live h p).isSome → Usable ro s.σ p u → ¬ (ro.slabStart ≤ p ∧ p < ro.slabEnd) → u < g.regionQSkip → v < g.regionQRandom →
        s.call ro ar t (.free p) (regionDraw chs v) = .ok (s', x) →
        (∃ gd, 4096 ≤ gd ∧ RegionWaiting g s' (p - gd) (u + 2 * gd)) ∧
        ∀ q n, q ≠ 0 → RegionWaiting g s q n → (RegionWaiting g s' q n ↔ place q ≠ v) := by
  obtain ⟨hro, rfl⟩ := r.roOk hg
  obtain ⟨w, f, _⟩ := r.fits hg
  have I := f.linked.inv
  have own : ∀ j, j < ro.g.regionQRandom → (s.σ.qr j).1 ≠ 0 → w.G.own ((s.σ.qr j).1 / PAGE) = .qr j := by
    intro j hj h0
    rw [← f.σ] at h0 ⊢
    have ok := I.qrOk j hj h0
    refine (I.qrOwn _ j).mpr ⟨hj, h0, Nat.le_refl _, ?_⟩
    have := ok.mod
    have := ok.size
    omega
  have uniq : ∀ j j', j < ro.g.regionQRandom → j' < ro.g.regionQRandom → (s.σ.qr j).1 ≠ 0 → (s.σ.qr j).1 = (s.σ.qr j').1 → j = j' := by
    intro j j' hj hj' h0 e
    have h1 := own j hj h0
    have h2 := own j' hj' (by rw [← e]; exact h0)
    rw [← e, h1] at h2
    injection h2
  let place : Nat → Nat := fun q => if h : ∃ j < ro.g.regionQRandom, (s.σ.qr j).1 = q then h.choose else 0
  have hpl : ∀ q j, q ≠ 0 → j < ro.g.regionQRandom → (s.σ.qr j).1 = q → place q = j := by
    intro q j h0 hj e
    have hw : ∃ j < ro.g.regionQRandom, (s.σ.qr j).1 = q := ⟨j, hj, e⟩
    show (if h : _ then _ else _) = _
    rw [dif_pos hw]
    exact uniq _ _ hw.choose_spec.1 hj (by rw [hw.choose_spec.2]; exact h0) (hw.choose_spec.2.trans e.symm)
  refine ⟨place, ?_, ?_, ?_⟩
  · rintro q n h0 ⟨j, hj, e⟩
    rw [hpl q j h0 hj (by rw [e])]; exact hj
  · rintro q n q' n' h0 ⟨j, hj, e⟩ h0' ⟨j', hj', e'⟩ he
    rw [hpl q j h0 hj (by rw [e]), hpl q' j' h0' hj' (by rw [e'])] at he
    subst he
    rw [e] at e'
    simpa using e'
  · intro t p u chs v s' x hl hu hlarge hskip hv hx
    have hs : ro.inSlab p = false := by
      unfold Ro.inSlab
      rw [Bool.eq_false_iff]
      intro k; apply hlarge
      simpa [and_comm] using k
    have hp0 : p ≠ 0 := by
      rintro rfl
      exact mine_ne_zero (t := 0) hro (f.linked.ready 0).inv (f.linked.mine (t := 0) hl) rfl
    rw [← f.σ] at hu
    obtain ⟨gd, hhas⟩ : ∃ gd, w.σ.rt.Has ⟨p, u, gd⟩ := by
      rcases hu.is hro f.linked hl with ⟨a', c', i', k', k1, _⟩ | ⟨gd, k1⟩
      · rw [k1.inSlab hro I] at hs; cases hs
      · exact ⟨gd, k1⟩
    have hok := I.reg _ hhas
    rcases lookupRegion_spec I p with ⟨i, rg, g1, _, _, g4, g5⟩ | ⟨_, g2⟩
    · obtain rfl := I.has_unique g5 hhas g4
      rw [f.σ] at g1
      have h1 := call_free_large hp0 hs g1 hq hskip hx
      rw [Nat.mod_eq_of_lt hv] at h1
      have hne : ∀ j, j < ro.g.regionQRandom → (s.σ.qr j).1 ≠ p - gd := by
        intro j hj e
        have hl := hok.lo
        have hm := hok.gmod
        have hpm := hok.pmod
        have hgp := hok.gpos
        simp only at hl hm hpm hgp
        have h2 := own j hj (by rw [e]; omega)
        rw [e] at h2
        have h3 := (I.regOwn ((p - gd) / PAGE) p).mpr ⟨_, hhas, rfl, Nat.le_refl _, by simp only; omega⟩
        rw [h2] at h3
        cases h3
      refine ⟨⟨gd, hok.gpos, v, hv, by rw [h1]; unfold setAt; rw [if_pos rfl, Nat.mul_comm 2]⟩, ?_⟩
      rintro q n h0 ⟨j, hj, e⟩
      rw [hpl q j h0 hj (by rw [e])]
      constructor
      · rintro ⟨j', hj', e'⟩ rfl
        rw [h1] at e'
        unfold setAt at e'
        split at e'
        · have := congrArg Prod.fst e'
          simp only at this
          exact hne j hj (by rw [e]; exact this.symm)
        · rename_i hn
          exact hn (uniq j' j hj' hj (by rw [e']; exact h0) (by rw [e, e']))
      · intro hn
        exact ⟨j, hj, by rw [h1]; unfold setAt; rw [if_neg hn]; exact e⟩
    · exact absurd rfl (g2 _ hhas)

end

/-- Thread 0 has freed the first of two blocks of class 112, which waits at one of 2048 places; the second one is live. -/
example : ∃ h s, Reach (exCfg false false) (exRo false false) (fun t => t % 4) false (goodClient (exRo false false)) h s ∧
    (exCfg false false).slabQRandom ≠ 0 ∧ lenR (exCfg false false) 7 = 2048 ∧ Waiting s 0 7 exA ∧
    exB = (exRo false false).regionStart 0 7 + 0 * (exCfg false false).slabSize 7 + 1 * (exCfg false false).slotSize 7 ∧ (live h exB).isSome ∧
    (∀ _ : Nat, Env false (exAt 0)) ∧ OnlyEnomem (fun _ => exAt 0) := by
  have e : ((exRun false false false (goodB (exRo false false)) [.call 0 (.malloc 100) 0, .call 0 (.malloc 100) 0, .call 0 (.free exA) 0]).any
      fun x => (live x.1 exB).isSome && decide ((x.2.σ.sc 0 7).qrand 0 = exA)) = true := by decide +kernel
  rw [Option.any_eq_true] at e
  obtain ⟨⟨h, s⟩, h1, h2⟩ := e
  have r := runActs_reach (D := goodClient (exRo false false)) (fun _ _ _ e => goodB_good e) (.init (exInit false false) fun _ => rfl) h1
  simp only [Bool.and_eq_true, decide_eq_true_eq] at h2
  exact ⟨h, s, r, by decide, by decide, ⟨0, h2.2⟩, by decide, h2.1, fun _ => exAt_env false _,
    fun n => ⟨fun _ => by simp [exAt, Choice.quiet], by simp [exAt, Choice.quiet], by simp [exAt, Choice.quiet]⟩⟩

/-- The length of the random quarantine is 8 (`CONFIG_SLAB_QUARANTINE_RANDOM_LENGTH`, at most 65536). -/
def cutCfg : Cfg := { exCfg false false with slabQRandom := 8 }
/-- As `exRo`, for `cutCfg`. -/
def cutRo : Ro := ⟨cutCfg, 0x10000000000, fun _ _ => PAGE⟩

/-- Two blocks of 16 bytes, freed one after the other: the first one leaves the first stage at once, although there are 65536 places. -/
example : Good cutCfg (fun t => t % 4) ∧ lenR cutCfg 1 = 65536 ∧ ∃ h s, Reach cutCfg cutRo (fun t => t % 4) false anyClient h s ∧
    ∃ s1 s2, s.call cutRo (fun t => t % 4) 0 (.free (cutRo.regionStart 0 1 + 0 * cutCfg.slabSize 1 + 0 * cutCfg.slotSize 1)) (fun _ => exAt 0) = .ok (s1, .unit) ∧
      s1.call cutRo (fun t => t % 4) 0 (.free (cutRo.regionStart 0 1 + 0 * cutCfg.slabSize 1 + 1 * cutCfg.slotSize 1)) (redraw (fun _ => exAt 0) 40000) = .ok (s2, .unit) := by
  refine ⟨⟨by constructor <;> decide, by decide, fun t => Nat.mod_lt _ (by decide)⟩, by decide, ?_⟩
  have e : ((runActs cutRo (fun t => t % 4) false (fun _ _ _ => true) [.call 0 (.malloc 8) 0, .call 0 (.malloc 8) 0] [] ⟨exSt, fun _ => ⟨0, false⟩⟩).any
      fun x => match x.2.call cutRo (fun t => t % 4) 0 (.free (cutRo.regionStart 0 1 + 0 * cutCfg.slabSize 1 + 0 * cutCfg.slotSize 1)) (fun _ => exAt 0) with
        | .ok (s1, .unit) => match s1.call cutRo (fun t => t % 4) 0 (.free (cutRo.regionStart 0 1 + 0 * cutCfg.slabSize 1 + 1 * cutCfg.slotSize 1)) (redraw (fun _ => exAt 0) 40000) with
          | .ok (_, .unit) => true
          | _ => false
        | _ => false) = true := by decide +kernel
  rw [Option.any_eq_true] at e
  obtain ⟨⟨h, s⟩, h1, h2⟩ := e
  have r := runActs_reach (D := anyClient) (fun _ _ _ _ => trivial) (.init (exInitOf (g := cutCfg) (by decide) (by decide) (by decide) (by decide)) fun _ => rfl) h1
  refine ⟨h, s, r, ?_⟩
  split at h2
  · rename_i s1 e1
    split at h2
    · rename_i s2 e2
      exact ⟨s1, s2, e1, e2⟩
    · cases h2
  · cases h2

/-- A freed large block waits, and another one is live. -/
example : ∃ h s, Reach (exCfg false false) (exRo false false) (fun t => t % 4) true anyClient h s ∧ (exCfg false false).regionQRandom ≠ 0 ∧
    (∃ q n, q ≠ 0 ∧ RegionWaiting (exCfg false false) s q n) ∧ ∃ p, (live h p).isSome ∧ Usable (exRo false false) s.σ p 229376 ∧
      ¬ ((exRo false false).slabStart ≤ p ∧ p < (exRo false false).slabEnd) ∧ 229376 < (exCfg false false).regionQSkip ∧
      ∃ s1, s.call (exRo false false) (fun t => t % 4) 0 (.free p) (regionDraw (fun _ => exAt 0) 1) = .ok (s1, .unit) := by
  obtain ⟨h, s, h1, h2⟩ := ex_any (stats := false) (sealed := false) (calm := true)
    [.call 0 (.malloc 200000) exMapAt, .call 0 (.malloc 200000) 0x110000000000, .call 0 (.free exBig) 0]
    (fun h s => match h with
      | [_, .call _ _ (.ptr p), _] => (live h p).isSome && decide (usableB (exRo false false) s.σ p = some 229376) &&
          !(decide ((exRo false false).slabStart ≤ p) && decide (p < (exRo false false).slabEnd)) && decide ((s.σ.qr 0).1 ≠ 0) &&
          match s.call (exRo false false) (fun t => t % 4) 0 (.free p) (regionDraw (fun _ => exAt 0) 1) with
          | .ok (_, .unit) => true
          | _ => false
      | _ => false)
    (by decide +kernel)
  split at h2
  · rename_i e1 t c p e2
    simp only [Bool.and_eq_true, decide_eq_true_eq, Bool.not_eq_true', Bool.and_eq_false_iff, decide_eq_false_iff_not] at h2
    obtain ⟨⟨⟨⟨q1, q2⟩, q3⟩, q4⟩, q5⟩ := h2
    refine ⟨_, s, h1, by decide, ⟨_, _, q4, 0, by decide, rfl⟩, p, q1, usableB_usable q2, by tauto, by decide, ?_⟩
    split at q5
    · rename_i s1 e3
      exact ⟨s1, e3⟩
    · cases q5
  · cases h2

end HM
