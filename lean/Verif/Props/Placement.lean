import Verif.Props.Free
import Verif.Props.FreeSlot
import Verif.Props.RandomUniform

/-! Random placement (C64): which slot of a slab `malloc` hands out is decided by the random number generator. -/

namespace HM

/-- The choices `chs`, except that the 16-bit random numbers are all `v`. -/
def redraw (chs : Nat → Choice) (v : Nat) : Nat → Choice := fun j => { chs j with u16 := fun _ => v }

/-- The 16-bit random numbers that select slot `k` out of `slots`. -/
def drawsFor (slots k : Nat) : Finset Nat := (Finset.range 65536).filter fun v => v * slots / 65536 = k

theorem drawsFor_card {slots k : Nat} (h0 : 0 < slots) (hs : slots ≤ 256) (hk : k < slots) :
    65536 / slots ≤ (drawsFor slots k).card ∧ (drawsFor slots k).card ≤ 65536 / slots + 1 := by
  have h := c30_u16_near_uniform_partial slots k h0 (by omega) hk
  have e : drawsFor slots k = (Finset.range (2 ^ 16)).filter fun x => (fun r => (getRandomU16Uniform slots [r]).isSome) x = true ∧
      (fun r => match getRandomU16Uniform slots [r] with | some (x, _) => x | none => 0) x = k := by
    unfold drawsFor
    refine Finset.filter_congr fun x hx => ?_
    rw [Finset.mem_range] at hx
    simp only [c30_u16_single_draw slots x [] (by omega) hx, Option.isSome_some, true_and]
    norm_num
  rw [e]
  exact h

theorem drawsFor_uniform {slots k v : Nat} (hs : slots ≤ 256) (h : v ∈ drawsFor slots k) : u16Uniform v slots = k := by
  unfold drawsFor at h
  rw [Finset.mem_filter, Finset.mem_range] at h
  unfold u16Uniform
  rw [Nat.mod_eq_of_lt h.1, Nat.mod_eq_of_lt (a := slots) (by omega)]
  exact h.2

theorem takeSlot_drawn {g : Cfg} {slots : Nat} {ch : Choice} {c c' : SC} {m k k' : Nat} (hr : g.slotRandomize = true) (hk : k < slots)
    (hu : c.used m k = false) (hd : u16Uniform (ch.u16 0) slots = k) (h : takeSlot g slots ch c m = .ok (k', c')) : k' = k := by
  unfold takeSlot at h
  rw [hr, hd, c33_every_slot slots k _ hk ((Bitmap.get_eq _ _).trans hu)] at h
  simp only [Res.ok.injEq, Prod.mk.injEq] at h
  exact h.1.symm

theorem takeSlot_range {g : Cfg} {slots : Nat} {ch : Choice} {c c' : SC} {m k : Nat} (h1 : 1 ≤ slots) (h256 : slots ≤ 256)
    (h : takeSlot g slots ch c m = .ok (k, c')) : k < slots ∧ c.used m k = false := by
  unfold SC.used
  rw [← Bitmap.get_eq]
  unfold takeSlot at h
  split at h
  · split at h <;> cases h
  · rename_i s hs
    cases h
    refine c33_sound _ slots _ _ _ h1 ?_ hs
    unfold u16Uniform
    rw [Nat.mod_eq_of_lt (a := slots) (by omega), Nat.div_lt_iff_lt_mul (by decide), Nat.mul_comm]
    exact Nat.mul_lt_mul_of_pos_left (Nat.mod_lt _ (by decide)) h1

/-- The slot is drawn last, so another draw gives another slot of the same slab. -/
theorem allocateSmall_redraw {g : Cfg} {base cls n : Nat} {ch : Choice} {c c1 : SC} {vm vm1 : Vm} {e e1 : Errno} {p : Nat}
    (hr : g.slotRandomize = true) (h1 : 1 ≤ g.slots cls) (h256 : g.slots cls ≤ 256)
    (h : allocateSmall g base cls n ch c vm e = .ok (some p, c1, vm1, e1)) :
    ∃ m k, k < g.slots cls ∧ c.used m k = false ∧ p = slotAddr g base cls m k ∧
      ∀ k', k' < g.slots cls → c.used m k' = false → ∀ v, u16Uniform v (g.slots cls) = k' →
        ∀ o c2 vm2 e2, allocateSmall g base cls n { ch with u16 := fun _ => v } c vm e = .ok (o, c2, vm2, e2) →
          o = some (slotAddr g base cls m k') := by
  unfold allocateSmall at h ⊢
  cases hp : c.partialHead with
  | some m =>
    simp only [hp] at h ⊢
    unfold allocFromPartial at h ⊢
    simp only [Res.bind_eq_ok, Prod.exists] at h ⊢
    obtain ⟨k, c3, h2, vm3, _, h3⟩ := h
    obtain ⟨hk, hu⟩ := takeSlot_range h1 h256 h2
    cases h3
    refine ⟨m, k, hk, hu, rfl, fun k' hk' hu' v hv o c2 vm2 e2 h => ?_⟩
    obtain ⟨k2, c4, h4, vm4, _, h5⟩ := h
    cases h5
    rw [takeSlot_drawn hr hk' hu' hv h4]; rfl
  | none =>
    cases he : c.emptyHead with
    | some m =>
      simp only [hp, he] at h ⊢
      unfold allocFromEmpty at h ⊢
      simp only [Res.bind_eq_ok, Prod.exists] at h ⊢
      obtain ⟨k, c3, h2, vm3, _, h3⟩ := h
      obtain ⟨hk, hu⟩ := takeSlot_range h1 h256 h2
      cases h3
      refine ⟨m, k, hk, (by simpa [SC.used, SC.upd] using hu), rfl, fun k' hk' hu' v hv o c2 vm2 e2 h => ?_⟩
      obtain ⟨k2, c4, h4, vm4, _, h5⟩ := h
      cases h5
      have hu2 := takeSlot_drawn (h := h4) hr hk' (by simpa [SC.used, SC.upd] using hu') hv
      rw [hu2]; rfl
    | none =>
      cases hf : c.freeHead with
      | some m =>
        simp only [hp, he, hf] at h ⊢
        unfold allocFromFree at h ⊢
        simp only [Res.bind_eq_ok, Prod.exists] at h ⊢
        obtain ⟨vm3, b, h2, h⟩ := h
        cases b with
        | true => simp at h
        | false =>
          simp only [Bool.false_eq_true, if_false, Res.bind_eq_ok, Prod.exists] at h
          obtain ⟨k, c3, h3, vm4, _, h5⟩ := h
          obtain ⟨hk, hu⟩ := takeSlot_range h1 h256 h3
          have hb : ∀ j, SC.used ((c.setCanaryValue g ch m).takeFreeHead (g.slots cls) m) m j = c.used m j := fun j => by
            simp only [SC.used, SC.takeFreeHead, SC.setCanaryValue, SC.upd]
            (repeat' split) <;> simp
          cases h5
          refine ⟨m, k, hk, (hb k).symm.trans hu, rfl, fun k' hk' hu' v hv o c2 vm2 e2 h => ?_⟩
          obtain ⟨vm5, b, h6, h⟩ := h
          obtain ⟨rfl, rfl⟩ : vm5 = vm3 ∧ b = false := by
            rw [h2] at h6; cases h6; exact ⟨rfl, rfl⟩
          simp only [Bool.false_eq_true, if_false, Res.bind_eq_ok, Prod.exists] at h
          obtain ⟨k2, c4, h4, vm6, _, h5⟩ := h
          cases h5
          rw [takeSlot_drawn hr hk' ((hb k').trans hu') hv h4]; rfl
      | none =>
        simp only [hp, he, hf] at h ⊢
        unfold allocFromNew at h ⊢
        simp only [Res.bind_eq_ok, Prod.exists] at h ⊢
        obtain ⟨mo, c3, vm3, e3, h2, h⟩ := h
        cases mo with
        | none => simp at h
        | some m =>
          simp only [Res.bind_eq_ok, Prod.exists] at h
          obtain ⟨k, c4, h3, vm4, _, h5⟩ := h
          obtain ⟨hk, hu⟩ := takeSlot_range h1 h256 h3
          have hb3 : c3.slabs = c.slabs := by
            unfold allocMetadata growMetadata SC.bumpMetadata at h2
            simp only [Res.bind_eq_ok] at h2
            obtain ⟨o, h6, h2⟩ := h2
            have ho : ∀ c', o = some c' → c'.slabs = c.slabs := by
              intro c' e'
              subst e'
              (repeat' split at h6) <;> cases h6 <;> rfl
            cases o with
            | none => cases h2
            | some c' =>
              simp only [Res.bind_eq_ok, Prod.exists] at h2
              obtain ⟨vm7, b, _, h2⟩ := h2
              rw [← ho c' rfl]
              (repeat' split at h2) <;> cases h2 <;> rfl
          have hb : ∀ j, SC.used (c3.setCanaryValue g ch m) m j = c.used m j := fun j => by
            rw [SC.used, SC.used, ← hb3]
            unfold SC.setCanaryValue SC.upd
            split <;> simp
          cases h5
          refine ⟨m, k, hk, (hb k).symm.trans hu, rfl, fun k' hk' hu' v hv o c2 vm2 e2 h => ?_⟩
          obtain ⟨mo, c5, vm5, e5, h6, h⟩ := h
          have h7 : allocMetadata g base cls (n ≠ 0) { ch with u16 := fun _ => v } c vm e = allocMetadata g base cls (n ≠ 0) ch c vm e := rfl
          rw [h7, h2] at h6
          cases h6
          simp only [Res.bind_eq_ok, Prod.exists] at h
          obtain ⟨k2, c4, h4, vm6, _, h5⟩ := h
          cases h5
          have hu2 : k2 = k' := by
            refine takeSlot_drawn hr hk' ?_ hv h4
            exact (hb k').trans hu'
          rw [hu2]; rfl

/-- Address `q` is in the quarantine for freed slots of class `c` of arena `a`. -/
def HeldBack (s : Sys) (a c q : Nat) : Prop := ∃ j, (s.σ.sc a c).qrand j = q ∨ (s.σ.sc a c).qqueue j = q

/-- A slot that neither holds a live block nor is quarantined is vacant. -/
theorem Fits.vacant {ro : Ro} {calm : Bool} {h : List Ev} {s : Sys} {w : World} (f : Fits ro calm h s w)
    {a c i k : Nat} (ha : a < ro.g.nArena) (hc : c < nClasses ro.g)
    (hq : ¬ HeldBack s a c (slotAddr ro.g (ro.regionStart a c) c i k))
    (hl : live h (slotAddr ro.g (ro.regionStart a c) c i k) = none) : (s.σ.sc a c).used i k = false := by
  obtain ⟨P, E, F, hi⟩ := f.linked.inv.cls a c ha hc
  unfold HeldBack at hq
  rw [← f.σ] at hq ⊢
  by_contra hu
  rw [Bool.not_eq_false] at hu
  have hq : (w.σ.sc a c).quar i k = false := by
    by_contra hn
    rw [Bool.not_eq_false, hi.qarr.bit] at hn
    cases hk : w.G.ql a c i k with
    | none => exact hn hk
    | rand j => exact hq ⟨j, Or.inl (hi.qarr.r1 i k j hk).1⟩
    | queue j => exact hq ⟨j, Or.inr (hi.qarr.q1 i k j hk).1⟩
    | transit => exact hi.notransit i k hk
  have h1 := (f.linked.inv.blk _).mpr (Or.inl ⟨a, c, i, k, ha, hc, rfl, by unfold SC.live; rw [hu, hq]; rfl⟩)
  rw [f.linked.blk, hl] at h1
  cases h1

/-- What `malloc` returns, in terms of its critical section. -/
theorem call_malloc_small {ro : Ro} {ar : Nat → Nat} {s s' : Sys} {t n : Nat} {x : Ret} {chs : Nat → Choice} (hs : adjustSizeForCanary ro.g n ≤ ro.g.maxSlab)
    (h : s.call ro ar t (.malloc n) chs = .ok (s', x)) :
    ∃ o c vm e, allocateSmall ro.g (ro.regionStart (ar t) (ro.g.clsOf (adjustSizeForCanary ro.g n))) (ro.g.clsOf (adjustSizeForCanary ro.g n))
      (adjustSizeForCanary ro.g n) (chs 1) (s.σ.sc (ar t) (ro.g.clsOf (adjustSizeForCanary ro.g n))) s.σ.vm (s.tl t).errno = .ok (o, c, vm, e) ∧
      x = retPtr o := by
  unfold Sys.call Call.prog hMalloc alloc allocate smallAlloc unsealMeta sealMeta critical at h
  simp only [if_pos hs, bind, pure, Prog.one, Prog.bind, Prog.run, Bool.not_true, Bool.and_false, Bool.false_eq_true, if_false] at h
  split at h <;> try cases h
  rename_i σ1 tl1 x1 h1
  split at h1 <;> try cases h1
  rename_i h2
  split at h2 <;> try cases h2
  rename_i h3
  split at h3 <;> try cases h3
  split at h3
  · next h6 =>
      cases h3
      exact ⟨_, _, _, _, h6, rfl⟩
  all_goals cases h3

section
variable {g : Cfg} {ro : Ro} {ar : Nat → Nat} {calm : Bool} {D : Client} {h : List Ev} {s s' : Sys} {t : Nat} {chs : Nat → Choice}

/-- C64, for programs with or without memory errors. Suppose slots are chosen at random. If `malloc` of a small size returns `p`, then `p` is slot `k` of a slab (number `i`) of the thread's area for the size class,
and no slot of the slab that neither holds a live block nor is quarantined is privileged: each is selected by its own share of the 65536 values of
the 16-bit random number (`drawsFor`), all other circumstances unchanged. The call then returns this slot, if it returns. -/
theorem c64_placement_any (hg : Good g ar) (r : Reach g ro ar calm D h s) (hr : g.slotRandomize = true)
    {n p : Nat} (hs : n = 0 ∨ n + g.canarySize ≤ g.maxSlab)
    (hc : s.call ro ar t (.malloc n) chs = .ok (s', .ptr p)) (hp : p ≠ 0) :
    ∃ c i k, c < nClasses g ∧ k < g.slots c ∧ p = ro.regionStart (ar t) c + i * g.slabSize c + k * g.slotSize c ∧
      ∀ k', k' < g.slots c → live h (ro.regionStart (ar t) c + i * g.slabSize c + k' * g.slotSize c) = none →
        ¬ HeldBack s (ar t) c (ro.regionStart (ar t) c + i * g.slabSize c + k' * g.slotSize c) →
        65536 / g.slots c ≤ (drawsFor (g.slots c) k').card ∧ (drawsFor (g.slots c) k').card ≤ 65536 / g.slots c + 1 ∧
        ∀ v ∈ drawsFor (g.slots c) k', ∀ s'' x, s.call ro ar t (.malloc n) (redraw chs v) = .ok (s'', x) →
          x = .ptr (ro.regionStart (ar t) c + i * g.slabSize c + k' * g.slotSize c) := by
  obtain ⟨hro, rfl⟩ := r.roOk hg
  obtain ⟨w, f, _⟩ := r.fits hg
  have hs' : adjustSizeForCanary ro.g n ≤ ro.g.maxSlab := by
    unfold adjustSizeForCanary
    split <;> omega
  obtain ⟨o, c1, vm1, e1, h1, ho⟩ := call_malloc_small hs' hc
  have hcl := clsOf_lt hs'
  have G := classGeo ro.g hcl
  cases o with
  | none => cases ho; exact absurd rfl hp
  | some q =>
    obtain rfl : p = q := by injection ho
    obtain ⟨i, k, hk, _, hpe, hall⟩ := allocateSmall_redraw hr G.slots_pos G.slots_le h1
    refine ⟨_, i, k, hcl, hk, hpe, fun k' hk' hl hq => ?_⟩
    obtain ⟨b1, b2⟩ := drawsFor_card (by have := G.slots_pos; omega) G.slots_le hk'
    refine ⟨b1, b2, fun v hv s'' x hx => ?_⟩
    obtain ⟨o2, c2, vm2, e2, h2, rfl⟩ := call_malloc_small hs' hx
    rw [hall k' hk' (f.vacant (hg.arena t) hcl hq hl) v (drawsFor_uniform G.slots_le hv) o2 c2 vm2 e2 h2]
    rfl

/-- C64. In a program without memory errors, with slots chosen at random: if `malloc` of
a small size returns `p`, then with an appropriate share of the values of the 16-bit random number, all other circumstances
unchanged, it returns `q` instead, for each slot `q` of the slab that neither holds a live block nor is quarantined. -/
theorem c64_placement (hg : Good g ar) (r : Reach g ro ar calm (goodClient ro) h s) (hr : g.slotRandomize = true)
    {n p : Nat} (hs : n = 0 ∨ n + g.canarySize ≤ g.maxSlab) (he : ∀ n, Env calm (chs n)) (hsys : OnlyEnomem chs)
    (hc : s.call ro ar t (.malloc n) chs = .ok (s', .ptr p)) (hp : p ≠ 0) :
    ∃ c i k, c < nClasses g ∧ k < g.slots c ∧ p = ro.regionStart (ar t) c + i * g.slabSize c + k * g.slotSize c ∧
      ∀ k', k' < g.slots c → live h (ro.regionStart (ar t) c + i * g.slabSize c + k' * g.slotSize c) = none →
        ¬ HeldBack s (ar t) c (ro.regionStart (ar t) c + i * g.slabSize c + k' * g.slotSize c) →
        65536 / g.slots c ≤ (drawsFor (g.slots c) k').card ∧ (drawsFor (g.slots c) k').card ≤ 65536 / g.slots c + 1 ∧
        ∀ v ∈ drawsFor (g.slots c) k', ∃ s'', s.call ro ar t (.malloc n) (redraw chs v) =
          .ok (s'', .ptr (ro.regionStart (ar t) c + i * g.slabSize c + k' * g.slotSize c)) := by
  obtain ⟨c, i, k, h1, h2, h3, h4⟩ := c64_placement_any hg r hr hs hc hp
  refine ⟨c, i, k, h1, h2, h3, fun k' hk' hl hq => ?_⟩
  obtain ⟨b1, b2, b3⟩ := h4 k' hk' hl hq
  refine ⟨b1, b2, fun v hv => ?_⟩
  have hn64 : n < W64 := by
    obtain ⟨hro, rfl⟩ := r.roOk hg
    rcases maxSlab_cases ro.g with ⟨_, e⟩ | ⟨_, e⟩ <;> rw [e] at hs <;> omega
  have he2 : ∀ j, Env calm (redraw chs v j) := fun j => he j
  obtain ⟨s'', x, hx⟩ := c05_no_abort (c := .malloc n) (chs := redraw chs v) (t := t) hg r hn64 he2 (by exact hsys) trivial
  exact ⟨s'', by rw [hx, b3 v hv s'' x hx]⟩

/-- C64. Without a quarantine for freed slots none is quarantined. -/
theorem c64_no_quarantine (hg : Good g ar) (r : Reach g ro ar calm D h s) (hq0 : g.slabQRandom = 0) (hq1 : g.slabQQueue = 0) {a c q : Nat}
    (ha : a < g.nArena) (hc : c < nClasses g) (h0 : q ≠ 0) : ¬ HeldBack s a c q := by
  obtain ⟨hro, rfl⟩ := r.roOk hg
  obtain ⟨w, f, _⟩ := r.fits hg
  obtain ⟨P, E, F, hi⟩ := f.linked.inv.cls a c ha hc
  rintro ⟨j, e⟩
  rw [← f.σ] at e
  rcases e with rfl | rfl
  · obtain ⟨i, k, h1⟩ := hi.qarr.r2 j h0
    have := (hi.qarr.r1 i k j h1).2
    rw [hq0] at this
    simp [shl64] at this
  · obtain ⟨i, k, h1⟩ := hi.qarr.q2 j h0
    have := (hi.qarr.q1 i k j h1).2
    rw [hq1] at this
    simp [shl64] at this

end

/-- Thread 0 has two live blocks of class 112 and has freed the first one. `malloc(100)` can return it again; the third
slot of the slab is vacant, too, and is returned for another random number. -/
example : ∃ h s s', Reach (exCfg false false false) (exRo false false false) (fun t => t % 4) false (goodClient (exRo false false false)) h s ∧
    (exCfg false false false).slotRandomize = true ∧ (∀ _ : Nat, Env false (exAt 0)) ∧ OnlyEnomem (fun _ => exAt 0) ∧
    s.call (exRo false false false) (fun t => t % 4) 0 (.malloc 100) (fun _ => exAt 0) = .ok (s', .ptr exA) ∧
    live h exB = some ⟨100, none⟩ ∧ live h (exB + 112) = none ∧ ¬ HeldBack s 0 7 (exB + 112) ∧
    (∃ s'', s.call (exRo false false false) (fun t => t % 4) 0 (.malloc 100) (redraw (fun _ => exAt 0) 4000) = .ok (s'', .ptr (exB + 112))) := by
  have e : ((exRun false false false (goodB (exRo false false false)) [.call 0 (.malloc 100) 0, .call 0 (.malloc 100) 0, .call 1 (.free exA) 0] false).any
      fun x => decide (live x.1 exB = some ⟨100, none⟩) && decide (live x.1 (exB + 112) = none) &&
        (match x.2.call (exRo false false false) (fun t => t % 4) 0 (.malloc 100) (fun _ => exAt 0) with
        | .ok (_, .ptr p) => decide (p = exA)
        | _ => false) &&
        match x.2.call (exRo false false false) (fun t => t % 4) 0 (.malloc 100) (redraw (fun _ => exAt 0) 4000) with
        | .ok (_, .ptr p) => decide (p = exB + 112)
        | _ => false) = true := by decide +kernel
  rw [Option.any_eq_true] at e
  obtain ⟨⟨h, s⟩, h1, h2⟩ := e
  have r := runActs_reach (D := goodClient (exRo false false false)) (fun _ _ _ e => goodB_good e) (.init (exInit false false false) fun _ => rfl) h1
  simp only [Bool.and_eq_true, decide_eq_true_eq] at h2
  obtain ⟨⟨⟨h2, h3⟩, h4⟩, h5⟩ := h2
  split at h4 <;> try cases h4
  rename_i s1 p1 e1
  split at h5 <;> try cases h5
  rename_i s2 p2 e2
  rw [decide_eq_true_eq] at h4 h5
  subst h4 h5
  exact ⟨h, s, s1, r, rfl, fun _ => exAt_env false _, fun n => ⟨fun _ => by simp [exAt, Choice.quiet], by simp [exAt, Choice.quiet], by simp [exAt, Choice.quiet]⟩, e1, h2, h3,
    c64_no_quarantine (exGood false false false) r rfl rfl (by decide) (by decide) (by decide), s2, e2⟩

end HM
