import Verif.Props.Fail
/-
C44. A small allocation fails only if the kernel refuses memory or the region of its class is used up.
-/
namespace HM

variable {g : Cfg} {ro : Ro} {ar : Nat → Nat} {calm : Bool} {D : Client} {h : List Ev} {s : Sys} {t : Nat} {chs : Nat → Choice}

/-- How many of the numbers below `n` are not of the form k * (d + 1) + d. -/
theorem card_unguarded (d n : Nat) : ((Finset.range n).filter fun i => i % (d + 1) ≠ d).card = n - n / (d + 1) := by
  induction n with
  | zero => simp
  | succ n ih =>
    rw [Finset.range_add_one, Finset.filter_insert, Nat.succ_div]
    have hle : n / (d + 1) ≤ n := Nat.div_le_self _ _
    have hd : d + 1 ∣ n + 1 ↔ n % (d + 1) = d := by
      rw [Nat.dvd_iff_mod_eq_zero, Nat.add_mod]
      have : n % (d + 1) < d + 1 := Nat.mod_lt n (Nat.succ_pos d)
      by_cases h0 : d = 0
      · subst h0; simp [Nat.mod_one]
      · rw [Nat.mod_eq_of_lt (show 1 < d + 1 by omega)]
        constructor
        · intro h
          by_contra hn
          rw [Nat.mod_eq_of_lt (by omega)] at h; omega
        · intro h; rw [h, Nat.mod_self]
    by_cases k : n % (d + 1) = d
    · rw [if_neg (by simpa using k), ih, if_pos (hd.mpr k)]
      omega
    · rw [if_pos k, Finset.card_insert_of_notMem (by simp), ih, if_neg (fun h => k (hd.mp h))]
      omega

/-- Number of slab positions of a class that are not guard slabs. -/
def Cfg.positions (g : Cfg) (cls : Nat) : Nat := g.classRegionSize / g.slabSize cls - g.classRegionSize / g.slabSize cls / (g.guardSlabsInterval + 1)

theorem full_bits {g : Cfg} {cls : Nat} {c : SC} {loc : Nat → Loc} (b : Bits g cls c loc) {i k : Nat} (h : CountOk (g.slots cls) (loc i) (c.slabs i).count)
    (hl : loc i = .out) (hk : k < g.slots cls) : c.used i k = true := by
  rw [hl, b.cnt] at h
  exact (bitCount_full_iff _ _).mp h k hk

/-- In a class that has no room left, all slots but those held back by the quarantines are live. -/
theorem exhausted_live {base cls : Nat} {c : SC} {P E F : List Nat} {loc : Nat → Loc} {ql : Nat → Nat → QLoc} (hcls : cls < nClasses g)
    (I : SCInv g base cls c P E F loc ql) (hx : Exhausted g cls c loc) :
    ∃ l : Finset (Nat × Nat), (∀ x ∈ l, x.1 < g.metaMax cls ∧ x.2 < g.slots cls ∧ c.live x.1 x.2 = true) ∧
      g.positions cls * g.slots cls ≤ l.card + (g.freeSlabsQ * g.slots cls + (lenR g cls + lenQ g cls)) := by
  obtain ⟨h1, h2⟩ := hx
  let S := (Finset.range (g.metaMax cls)).filter fun i => i % (g.guardSlabsInterval + 1) ≠ g.guardSlabsInterval
  let O := S.filter fun i => loc i = .out
  have hS : ∀ i ∈ S, loc i = .out ∨ ∃ j, loc i = .quar j := fun i hi => by
    simp only [S, Finset.mem_filter, Finset.mem_range] at hi
    exact h2 i ⟨by omega, hi.2⟩
  have c1 : S.card ≤ O.card + g.freeSlabsQ := by
    have e := Finset.card_filter_add_card_filter_not (s := S) (fun i => loc i = .out)
    have : (S.filter fun i => ¬ loc i = .out).card ≤ (Finset.range g.freeSlabsQ).card := by
      refine Finset.card_le_card_of_injOn (fun i => match loc i with | .quar j => j | _ => 0) ?_ ?_
      · intro i hi
        simp only [Finset.coe_filter, Set.mem_ofPred_eq] at hi
        obtain ⟨j, hj⟩ := (hS i hi.1).resolve_left hi.2
        simp only [hj]
        exact Finset.mem_coe.mpr (Finset.mem_range.mpr (I.lists.ql j i hj).1)
      · intro i hi i' hi' e
        simp only [Finset.coe_filter, Set.mem_ofPred_eq] at hi hi'
        obtain ⟨j, hj⟩ := (hS i hi.1).resolve_left hi.2
        obtain ⟨j', hj'⟩ := (hS i' hi'.1).resolve_left hi'.2
        simp only [hj, hj'] at e
        subst e
        have q1 := (I.lists.qm j i).mpr hj
        have q2 := (I.lists.qm j i').mpr hj'
        rw [q1] at q2
        exact Option.some.inj q2
    rw [Finset.card_range] at this
    have : O.card = (S.filter fun i => loc i = .out).card := rfl
    omega
  let T := O ×ˢ Finset.range (g.slots cls)
  have hT : ∀ x ∈ T, x.1 < g.metaMax cls ∧ x.2 < g.slots cls ∧ c.used x.1 x.2 = true := fun x hx => by
    simp only [T, O, S, Finset.mem_product, Finset.mem_filter, Finset.mem_range] at hx
    exact ⟨hx.1.1.1, hx.2, full_bits I.bits (I.cntOk _) hx.1.2 hx.2⟩
  have hQ : ∀ x ∈ T, ¬ c.live x.1 x.2 = true → (∃ j, ql x.1 x.2 = .rand j) ∨ ∃ j, ql x.1 x.2 = .queue j := fun x hx hl => by
    have h3 := (hT x hx).2.2
    unfold SC.live at hl
    rw [h3, Bool.true_and, Bool.not_eq_true', Bool.not_eq_false, I.qarr.bit] at hl
    have h4 := I.notransit x.1 x.2
    cases e : ql x.1 x.2 with
    | none => exact absurd e hl
    | rand j => exact Or.inl ⟨j, rfl⟩
    | queue j => exact Or.inr ⟨j, rfl⟩
    | transit => exact absurd e h4
  have c2 : (T.filter fun x => ¬ c.live x.1 x.2 = true).card ≤ (Finset.range (lenR g cls + lenQ g cls)).card := by
    refine Finset.card_le_card_of_injOn (fun x => match ql x.1 x.2 with | .rand j => j | .queue j => lenR g cls + j | _ => 0) ?_ ?_
    · intro x hx
      simp only [Finset.coe_filter, Set.mem_ofPred_eq] at hx
      rcases hQ x hx.1 hx.2 with ⟨j, hj⟩ | ⟨j, hj⟩
      · simp only [hj]
        have : j < lenR g cls := (I.qarr.r1 _ _ _ hj).2
        exact Finset.mem_coe.mpr (Finset.mem_range.mpr (by omega))
      · simp only [hj]
        have : j < lenQ g cls := (I.qarr.q1 _ _ _ hj).2
        exact Finset.mem_coe.mpr (Finset.mem_range.mpr (by omega))
    · intro x hx y hy e
      simp only [Finset.coe_filter, Set.mem_ofPred_eq] at hx hy
      have b1 := (hT x hx.1).2.1
      have b2 := (hT y hy.1).2.1
      have fin : slotAddr g base cls x.1 x.2 = slotAddr g base cls y.1 y.2 → x = y := fun e =>
        Prod.ext (slotAddr_inj hcls b1 b2 e).1 (slotAddr_inj hcls b1 b2 e).2
      rcases hQ x hx.1 hx.2 with ⟨j, hj⟩ | ⟨j, hj⟩ <;> rcases hQ y hy.1 hy.2 with ⟨j', hj'⟩ | ⟨j', hj'⟩ <;> simp only [hj, hj'] at e
      · subst e
        exact fin ((I.qarr.r1 _ _ _ hj).1.symm.trans (I.qarr.r1 _ _ _ hj').1)
      · have : j < lenR g cls := (I.qarr.r1 _ _ _ hj).2
        omega
      · have : j' < lenR g cls := (I.qarr.r1 _ _ _ hj').2
        omega
      · have e : j = j' := by omega
        subst e
        exact fin ((I.qarr.q1 _ _ _ hj).1.symm.trans (I.qarr.q1 _ _ _ hj').1)
  rw [Finset.card_range] at c2
  refine ⟨T.filter fun x => c.live x.1 x.2 = true, fun x hx => ?_, ?_⟩
  · rw [Finset.mem_filter] at hx
    exact ⟨(hT x hx.1).1, (hT x hx.1).2.1, hx.2⟩
  · have c3 := Finset.card_filter_add_card_filter_not (s := T) (fun x => c.live x.1 x.2 = true)
    have c4 : T.card = O.card * g.slots cls := by
      show (O ×ˢ _).card = _
      rw [Finset.card_product, Finset.card_range]
    have c5 : S.card = g.positions cls := card_unguarded _ _
    have c6 : S.card * g.slots cls ≤ (O.card + g.freeSlabsQ) * g.slots cls := Nat.mul_le_mul_right _ c1
    rw [c5, Nat.add_mul] at c6
    omega

/-- The size asked for by `malloc`, `calloc` or `realloc`. -/
def Call.plain : Call → Option Nat
  | .malloc n => some n
  | .calloc n k => some (n * k)
  | .realloc _ n => some n
  | _ => none

/-- C44. Suppose the kernel never refuses memory. If a small allocation returns NULL, then the region of its class is used
up: the number of live blocks in it is that of all slots in all slab positions (except for guard slabs), up to those in the
slabs held back by the quarantine for free slabs and to those in the quarantine for freed slots. -/
theorem c44_capacity (hg : Good g ar) (r : Reach g ro ar true D h s) {c : Call} {n : Nat} {s' : Sys} {x : Ret} (hok : c.Ok) (he : ∀ n, Env true (chs n))
    (hn : c.plain = some n) (hs : adjustSizeForCanary g n ≤ g.maxSlab) (hc : s.call ro ar t c chs = .ok (s', x)) (hx : x = .ptr 0) :
    ∃ l : List Nat, l.Nodup ∧ (∀ p ∈ l, (live h p).isSome ∧ ro.regionStart (ar t) (g.clsOf (adjustSizeForCanary g n)) ≤ p ∧
        p < ro.regionStart (ar t) (g.clsOf (adjustSizeForCanary g n)) + g.classRegionSize) ∧
      g.positions (g.clsOf (adjustSizeForCanary g n)) * g.slots (g.clsOf (adjustSizeForCanary g n)) ≤
        l.length + g.freeSlabsQ * g.slots (g.clsOf (adjustSizeForCanary g n)) +
          lenR g (g.clsOf (adjustSizeForCanary g n)) + lenQ g (g.clsOf (adjustSizeForCanary g n)) := by
  obtain ⟨hro, rfl⟩ := r.roOk hg
  obtain ⟨w, w', C, _⟩ := r.called hg hok he hc
  have hz : w'.G.blk 0 = .nobody := blk_zero hro C.post.linked.inv
  have hd : Denied .seq ro t (ar t) (adjustSizeForCanary ro.g n) (w.lend t) (s'.tl t).errno w' := by
    have hres := C.res
    have hnone : ∀ o, retPtr o = .ptr 0 → o = none ∨ o = some 0 := fun o ho => by
      cases o with
      | none => exact Or.inl rfl
      | some p => cases ho; exact Or.inr rfl
    have hG : ∀ {n}, Got .seq ro t (ar t) n (w.lend t) 0 w' → False := fun h1 => by
      rcases h1 with ⟨_, h1⟩ | ⟨_, h1⟩ <;> (have h2 := h1.blk; rw [hz] at h2; cases h2)
    subst hx
    cases c with
    | malloc m =>
      cases hn
      obtain ⟨o, e, h1⟩ := hres
      rcases hnone o e.symm with rfl | rfl
      · exact h1
      · exact (hG h1).elim
    | calloc m k =>
      cases hn
      obtain ⟨o, e, h1⟩ := hres
      rcases hnone o e.symm with rfl | rfl
      · rcases h1 with ⟨h1, _⟩ | ⟨_, h1⟩
        · exfalso
          unfold adjustSizeForCanary at hs
          have := maxSlab_cases ro.g
          have h1 : 18446744073709551616 ≤ m * k := h1
          rcases this with ⟨_, e⟩ | ⟨_, e⟩ <;> split at hs <;> omega
        · exact h1
      · have := h1.2.got.mine.blk
        rw [hz] at this; cases this
    | realloc p m =>
      cases hn
      obtain ⟨o, e, h1⟩ := hres
      rcases hnone o e.symm with rfl | rfl
      · exact h1
      · rcases h1 with ⟨_, h1⟩ | ⟨h2, sz, _, _, h1 | ⟨_, _, h1, _⟩⟩
        · exact (hG h1).elim
        · have := h1.mine.blk
          rw [hz] at this; cases this
        · exact absurd h1.symm h2
    | _ => cases hn
  generalize hcl : ro.g.clsOf (adjustSizeForCanary ro.g n) = cls at *
  have hcls : cls < nClasses ro.g := by rw [← hcl]; exact clsOf_lt hs
  have hfull : Exhausted ro.g cls (w.σ.sc (ar t) cls) (w.G.loc (ar t) cls) := by
    have := hd.2.2 rfl C.pre.calm hs
    rw [hcl] at this
    exact this
  obtain ⟨P, E, F, I⟩ := C.pre.linked.inv.cls (ar t) cls (hg.arena t) hcls
  obtain ⟨l, h1, h2⟩ := exhausted_live hcls I hfull
  refine ⟨l.toList.map fun x => slotAddr ro.g (ro.regionStart (ar t) cls) cls x.1 x.2, ?_, ?_, ?_⟩
  · refine List.Nodup.map_on ?_ (Finset.nodup_toList _)
    intro x hx y hy e
    rw [Finset.mem_toList] at hx hy
    have := slotAddr_inj hcls (h1 x hx).2.1 (h1 y hy).2.1 e
    exact Prod.ext this.1 this.2
  · intro p hp
    rw [List.mem_map] at hp
    obtain ⟨x, hx, rfl⟩ := hp
    rw [Finset.mem_toList] at hx
    obtain ⟨q1, q2, q3⟩ := h1 x hx
    have hsm : IsSmall ro w.σ (slotAddr ro.g (ro.regionStart (ar t) cls) cls x.1 x.2) (ar t) cls x.1 x.2 := ⟨hg.arena t, hcls, rfl, q3⟩
    refine ⟨?_, ?_⟩
    · exact UsableIs.live hro C.pre.linked (Or.inl ⟨_, _, _, _, hsm, rfl⟩)
    · rw [slotAddr_eq]
      have := slab_in_region hcls q1
      have := slot_in_slab hcls q2
      have := (classGeo ro.g hcls).size_ge
      omega
  · rw [List.length_map, Finset.length_toList]
    omega

/-- The class of 16384 bytes is exhausted in the example with the smallest class regions (8 slabs of 4 slots). -/
example : ∃ h s, Reach tinyCfg tinyRo (fun _ => 0) true anyClient h s ∧
    ∃ s', s.call tinyRo (fun _ => 0) 0 (.malloc 16376) (fun _ => Choice.quiet) = .ok (s', .ptr 0) ∧
      tinyCfg.positions (tinyCfg.clsOf (adjustSizeForCanary tinyCfg 16376)) * tinyCfg.slots (tinyCfg.clsOf (adjustSizeForCanary tinyCfg 16376)) = 32 := by
  obtain ⟨h, s, h1, h2⟩ := tiny_any (List.replicate 32 (.call 0 (.malloc 16376) 0))
    (fun _ s => match s.call tinyRo (fun _ => 0) 0 (.malloc 16376) (fun _ => Choice.quiet) with
      | .ok (_, .ptr p) => decide (p = 0)
      | _ => false)
    (by decide +kernel)
  refine ⟨h, s, h1, ?_⟩
  split at h2
  · rename_i s' p e
    rw [decide_eq_true_eq] at h2
    subst h2
    exact ⟨s', e, by decide⟩
  · cases h2

end HM
