import Verif.Props.Content
/-
C16, C25, C41, C42, C44. Calls that fail: what they report and that they change nothing the application can see.
-/
namespace HM

variable {g : Cfg} {ro : Ro} {ar : Nat → Nat} {calm : Bool} {D : Client} {h : List Ev} {s : Sys} {t : Nat} {chs : Nat → Choice}

/-! ### C16 -/

/-- An allocation call: one of the allocation functions, or `realloc` on NULL or on a live block. -/
def Call.mayAllocate (h : List Ev) (c : Call) : Prop := c.request.isSome ∨ ∃ p n, c = .realloc p n ∧ (p = 0 ∨ (live h p).isSome)

/-- C16. An allocation call that returns no block, for whatever reason, leaves the set of live blocks as it is, and the
usable size, the contents and the accessibility of every one of them (also of the block given to `realloc`). -/
theorem c16_failure_keeps (hg : Good g ar) (r : Reach g ro ar calm D h s) {c : Call} {s' : Sys} {x : Ret} (hok : c.Ok)
    (he : ∀ n, Env calm (chs n)) (ha : c.mayAllocate h) (hc : s.call ro ar t c chs = .ok (s', x)) (hx : x.block = none) :
    (∀ q, live (.call t c x :: h) q = live h q) ∧
    ∀ q u, (live h q).isSome → Usable ro s.σ q u →
      Usable ro s'.σ q u ∧ ∀ y, q ≤ y → y < q + u → s'.byte y = s.byte y ∧ s'.access y := by
  have hl : ∀ q, live (.call t c x :: h) q = live h q := fun q => by
    show liveStep _ _ _ = _
    rcases ha with ha | ⟨p, n, rfl, _⟩
    · unfold liveStep
      cases c <;> simp only [Call.request, Option.isSome_none, Bool.false_eq_true, Option.isSome_some] at ha <;>
        simp only [Call.request, hx]
    · unfold liveStep
      simp only [hx]
  refine ⟨hl, fun q u hq hu => ?_⟩
  by_cases hh : c.hands q
  · rcases ha with ha | ⟨p, n, rfl, _⟩
    · rcases hh with rfl | ⟨_, rfl⟩ | ⟨_, rfl⟩ <;> cases ha
    · have e : p = q := by
        rcases hh with hh | ⟨_, hh⟩ | ⟨_, hh⟩ <;> cases hh
        rfl
      subst e
      obtain ⟨h1, _, h3⟩ := c10_failed hg r hok he hc hx hq hu
      exact ⟨h1, h3⟩
  · obtain ⟨h1, _, h3⟩ := c43_others_untouched hg r hok he hc hq hh hu
    exact ⟨h1, fun y q1 q2 => ⟨(h3 y q1 q2).1, (h3 y q1 q2).2.2⟩⟩

theorem UsableIs.lt_addr (hro : RoOk ro) {L : Nat → Option Info} {w : World} (l : Linked ro L w) {p u : Nat} (h : UsableIs ro w p u) : u < 2 ^ 63 := by
  rcases h with ⟨a, c, i, k, h1, rfl⟩ | ⟨gd, h1⟩
  · have h2 := (usable_le ro c).resolve_right (fun h => h h1.2.1)
    have G := classGeo ro.g h1.2.1
    have := G.fits
    have := G.slab_le
    have h3 : 1 * ro.g.slotSize c ≤ ro.g.slots c * ro.g.slotSize c := Nat.mul_le_mul_right _ G.slots_pos
    omega
  · have h2 := (l.inv.reg _ h1)
    have := h2.hi
    have := h2.lo
    have := h2.gpos
    have := pageUp_le_iff (n := u)
    simp only at *
    omega

/-- C16. A request for 2^63 bytes or more (for `calloc`: whose product is at least that, also when it overflows) does not
get a block. -/
theorem c16_too_large (hg : Good g ar) (r : Reach g ro ar calm D h s) {c : Call} {s' : Sys} {x : Ret} {i : Info} (hok : c.Ok)
    (he : ∀ n, Env calm (chs n)) (hc : s.call ro ar t c chs = .ok (s', x)) (hr : c.request = some i) (hi : 2 ^ 63 ≤ i.size) : x.block = none := by
  obtain ⟨hro, _⟩ := r.roOk hg
  obtain ⟨w, w', C, _⟩ := r.called hg hok he hc
  cases hx : x.block with
  | none => rfl
  | some p =>
    have hl : live (.call t c x :: h) p = some i := by
      show liveStep _ _ _ = _
      rw [liveStep_request hr hx, if_pos rfl]
    obtain ⟨u, h1, h2⟩ := C.post.linked.usable hl
    have := h1.lt_addr hro C.post.linked
    omega

/-- C16. Likewise for `realloc`. -/
theorem c16_realloc_too_large (hg : Good g ar) (r : Reach g ro ar calm D h s) {p n : Nat} {s' : Sys} {x : Ret} (hok : (Call.realloc p n).Ok)
    (he : ∀ n, Env calm (chs n)) (hp : p = 0 ∨ (live h p).isSome) (hc : s.call ro ar t (.realloc p n) chs = .ok (s', x)) (hi : 2 ^ 63 ≤ n) :
    x.block = none := by
  obtain ⟨hro, _⟩ := r.roOk hg
  obtain ⟨w, w', C, _⟩ := r.called hg hok he hc
  cases hx : x.block with
  | none => rfl
  | some q =>
    have hl : ∃ al, live (.call t (.realloc p n) x :: h) q = some ⟨n, al⟩ := by
      show ∃ al, liveStep _ _ _ = _
      unfold liveStep
      simp only [hx]
      by_cases h0 : p = 0
      · rw [if_pos h0]; exact ⟨_, if_pos rfl⟩
      · rw [if_neg h0]
        obtain ⟨j, hj⟩ := Option.isSome_iff_exists.mp (hp.resolve_left h0)
        rw [hj]
        exact ⟨_, if_pos rfl⟩
    obtain ⟨al, hl⟩ := hl
    obtain ⟨u, h1, h2⟩ := C.post.linked.usable hl
    have := h1.lt_addr hro C.post.linked
    simp only at h2
    omega

/-! ### C25, C41 -/

/-- More large blocks are live than three eighths of the largest number of entries the region table can have. -/
def ManyLarge (ro : Ro) (h : List Ev) : Prop :=
  ∃ l : List Nat, l.Nodup ∧ (∀ p ∈ l, (live h p).isSome ∧ ¬ (ro.slabStart ≤ p ∧ p < ro.slabEnd)) ∧
    3 * (ro.g.classRegionSize / 4096 / 24) < 8 * l.length

theorem regs_card {rt : RegTable} (hi : rt.Inv hashPage) : rt.regs.card + rt.free = rt.total := by
  have h1 : rt.regs = ((Finset.range rt.total).filter fun i => (rt.tab i).p ≠ 0).image rt.tab := by
    ext r
    unfold RegTable.regs
    simp only [Finset.mem_filter, Finset.mem_image, Finset.mem_range]
    constructor
    · rintro ⟨⟨i, h1, rfl⟩, h2⟩; exact ⟨i, ⟨h1, h2⟩, rfl⟩
    · rintro ⟨i, ⟨h1, h2⟩, rfl⟩; exact ⟨⟨i, h1, rfl⟩, h2⟩
  rw [h1, Finset.card_image_of_injOn, hi.free]
  · unfold nulls
    have := Finset.card_filter_add_card_filter_not (s := Finset.range rt.total) (fun i => (rt.tab i).p = 0)
    simp only [ne_eq]
    rw [Finset.card_range] at this
    omega
  · intro i h2 j h3 e
    simp only [Finset.coe_filter, Finset.mem_range, Set.mem_ofPred_eq] at h2 h3
    exact hi.tab.distinct i j h2.1 h3.1 h2.2 (by rw [e])

theorem TableFull.many (hro : RoOk ro) {h : List Ev} {w : World} (l : Linked ro (live h) w) (hf : TableFull ro w) : ManyLarge ro h := by
  obtain ⟨h1, h2⟩ := hf
  refine ⟨w.σ.rt.regs.toList.map RegionMeta.p, ?_, ?_, ?_⟩
  · refine List.Nodup.map_on ?_ (Finset.nodup_toList _)
    intro r hr r' hr' e
    rw [Finset.mem_toList, RegTable.mem_regs] at hr hr'
    exact l.inv.has_unique hr hr' e
  · intro p hp
    rw [List.mem_map] at hp
    obtain ⟨⟨q, sz, gd⟩, hr, rfl⟩ := hp
    rw [Finset.mem_toList, RegTable.mem_regs] at hr
    have hu : UsableIs ro w q sz := Or.inr ⟨gd, hr⟩
    refine ⟨hu.live hro l, fun hh => ?_⟩
    simp only at hh
    have := has_not_inSlab hro l.inv hr
    unfold Ro.inSlab at this
    simp only [Bool.and_eq_false_iff, decide_eq_false_iff_not] at this
    omega
  · rw [List.length_map, Finset.length_toList]
    have h3 := regs_card l.inv.rt
    have := hro.valid.classRegionMax
    unfold Cfg.maxRegionTable at h2
    have e : ro.g.classRegionSize / PAGE / 24 = ro.g.classRegionSize / 4096 / 24 := rfl
    rw [e] at h2
    have : ro.g.classRegionSize / 4096 / 24 ≤ 268435456 := by omega
    rcases h2 with h2 | h2
    · omega
    · have h2 : 18446744073709551616 ≤ 48 * w.σ.rt.total + 96 := h2
      omega

/-- The error code for a failed call: ENOMEM if the arguments are valid, EINVAL if not. -/
def ErrnoFor (valid : Prop) (e : Errno) : Prop := (valid ∧ e = ENOMEM) ∨ (¬ valid ∧ e = EINVAL)

/-- C25, C41, partial. An allocation call that returns no block reports EINVAL exactly if the alignment is not valid (not a
power of two, or for `posix_memalign` smaller than a pointer), and ENOMEM otherwise. What is missing: if very many large
blocks are live, so that the table of regions has reached its size limit, `malloc`, `calloc` and `realloc` return NULL
without setting errno (see `c25_errno_unset`). -/
theorem c25_errno_partial (hg : Good g ar) (r : Reach g ro ar calm D h s) {c : Call} {s' : Sys} {x : Ret} (hok : c.Ok)
    (he : ∀ n, Env calm (chs n)) (ha : c.mayAllocate h) (hc : s.call ro ar t c chs = .ok (s', x)) (hx : x.block = none) :
    match c with
    | .posixMemalign al _ => ∃ e, x = .memalign (.error e) ∧ ErrnoFor ((∃ k, al = 2 ^ k) ∧ 8 ≤ al) e
    | .alignedAlloc al _ => x = .ptr 0 ∧ ErrnoFor (∃ k, al = 2 ^ k) (s'.tl t).errno
    | .valloc _ => x = .ptr 0 ∧ (s'.tl t).errno = ENOMEM
    | .pvalloc _ => x = .ptr 0 ∧ (s'.tl t).errno = ENOMEM
    | _ => x = .ptr 0 ∧ ((s'.tl t).errno = ENOMEM ∨ ManyLarge ro h) := by
  have hlive := (c16_failure_keeps hg r hok he ha hc hx).1
  obtain ⟨hro, _⟩ := r.roOk hg
  obtain ⟨w, w', C, _⟩ := r.called hg hok he hc
  have hmany : TableFull ro w' → ManyLarge ro h := fun hf => by
    have e : live (.call t c x :: h) = live h := funext hlive
    have := C.post.linked
    rw [e] at this
    exact hf.many hro this
  have hres := C.res
  have hz : w'.G.blk 0 = .nobody := blk_zero hro C.post.linked.inv
  have h0 : ∀ o, (retPtr o).block = none → o = none ∨ o = some 0 := fun o ho => by
    cases o with
    | none => exact Or.inl rfl
    | some p =>
      by_cases hp : p = 0
      · exact Or.inr (by rw [hp])
      · rw [show (retPtr (some p)).block = some p from if_neg hp] at ho; cases ho
  have hD : ∀ n, Denied .seq ro t (ar t) n (w.lend t) (s'.tl t).errno w' → (s'.tl t).errno = ENOMEM ∨ ManyLarge ro h := fun n h1 =>
    h1.2.1.imp id fun h2 => hmany (h2.2 rfl)
  have hG : ∀ {n}, Got .seq ro t (ar t) n (w.lend t) 0 w' → False := fun h1 => by
    rcases h1 with ⟨_, h1⟩ | ⟨_, h1⟩ <;> (have h2 := h1.blk; rw [hz] at h2; cases h2)
  have hA : ∀ {al n}, GotAl .seq ro t (ar t) al n (w.lend t) 0 w' → False := fun h1 => by
    rcases h1 with ⟨_, ⟨_, _, _, _, _, _, h1⟩ | ⟨_, h1⟩⟩
    · exact hG h1
    · have h2 := h1.blk
      rw [hz] at h2; cases h2
  have hS : ∀ {al n o}, (retPtr o).block = none → AlSimple .seq ro t (ar t) al n (w.lend t) o (s'.tl t) w' →
      retPtr o = .ptr 0 ∧ ErrnoFor (∃ k, al = 2 ^ k) (s'.tl t).errno := fun {al n o} ho h1 => by
    rcases h0 o ho with rfl | rfl
    · refine ⟨rfl, ?_⟩
      rcases h1.2.2 with ⟨h2, h3⟩ | ⟨h2, h3⟩
      · exact Or.inr ⟨h3, h2⟩
      · exact Or.inl ⟨h3, h2⟩
    · exact (hA h1.2.2).elim
  have hP : ∃ k, PAGE = 2 ^ k := ⟨12, rfl⟩
  cases c with
  | malloc n =>
    obtain ⟨o, rfl, h1⟩ := hres
    rcases h0 o hx with rfl | rfl
    · exact ⟨rfl, hD _ h1⟩
    · exact (hG h1).elim
  | calloc n k =>
    obtain ⟨o, rfl, h1⟩ := hres
    rcases h0 o hx with rfl | rfl
    · exact ⟨rfl, h1.elim (fun h => Or.inl h.2.1) fun h => hD _ h.2⟩
    · have := h1.2.got.mine.blk
      rw [hz] at this; cases this
  | realloc p n =>
    obtain ⟨o, rfl, h1⟩ := hres
    rcases h0 o hx with rfl | rfl
    · exact ⟨rfl, hD _ h1⟩
    · rcases h1 with ⟨_, h1⟩ | ⟨h2, sz, _, _, h1 | ⟨_, _, h1, _⟩⟩
      · exact (hG h1).elim
      · have := h1.mine.blk
        rw [hz] at this; cases this
      · exact absurd h1.symm h2
  | posixMemalign al n =>
    obtain ⟨o, rfl, h1⟩ := hres
    cases o with
    | ok p => cases hx
    | error e =>
      refine ⟨e, rfl, ?_⟩
      rcases h1.2 with ⟨rfl, h3⟩ | ⟨rfl, h3⟩
      · exact Or.inr ⟨h3, rfl⟩
      · exact Or.inl ⟨h3, rfl⟩
  | alignedAlloc al n =>
    obtain ⟨o, rfl, h1⟩ := hres
    exact hS hx h1
  | valloc n =>
    obtain ⟨o, rfl, h1⟩ := hres
    have := hS hx h1
    exact ⟨this.1, (this.2.resolve_right fun h => h.1 hP).2⟩
  | pvalloc n =>
    obtain ⟨o, rfl, ⟨_, rfl, h1, _⟩ | ⟨_, h1⟩⟩ := hres
    · exact ⟨rfl, h1⟩
    · have := hS hx h1
      exact ⟨this.1, (this.2.resolve_right fun h => h.1 hP).2⟩
  | _ => rcases ha with ha | ⟨p, n, ha, _⟩ <;> cases ha

/-- C41. A call with an invalid alignment returns no block. -/
theorem c41_rejects (hg : Good g ar) (r : Reach g ro ar calm D h s) {al n : Nat} {s' : Sys} {x : Ret} (ha : al < W64) (hn : n < W64)
    (he : ∀ n, Env calm (chs n)) (hbad : ¬ ∃ k, al = 2 ^ k) (hc : s.call ro ar t (.alignedAlloc al n) chs = .ok (s', x)) :
    x = .ptr 0 ∧ (s'.tl t).errno = EINVAL := by
  obtain ⟨hro, _⟩ := r.roOk hg
  obtain ⟨w, w', C, _⟩ := r.called hg (c := .alignedAlloc al n) ⟨ha, hn⟩ he hc
  obtain ⟨o, rfl, h1⟩ := C.res
  cases o with
  | none => exact ⟨rfl, (h1.2.2.resolve_right fun h => hbad h.2).1⟩
  | some p => exact absurd h1.2.1 hbad

/-- C41. `posix_memalign` with an invalid alignment returns EINVAL, and no block (nothing is stored to `*memptr`: in the
model, the stored value is part of the result only on success). -/
theorem c41_memalign_rejects (hg : Good g ar) (r : Reach g ro ar calm D h s) {al n : Nat} {s' : Sys} {x : Ret} (ha : al < W64) (hn : n < W64)
    (he : ∀ n, Env calm (chs n)) (hbad : ¬ ((∃ k, al = 2 ^ k) ∧ 8 ≤ al)) (hc : s.call ro ar t (.posixMemalign al n) chs = .ok (s', x)) :
    x = .memalign (.error EINVAL) := by
  obtain ⟨hro, _⟩ := r.roOk hg
  obtain ⟨w, w', C, _⟩ := r.called hg (c := .posixMemalign al n) ⟨ha, hn⟩ he hc
  obtain ⟨o, rfl, h1⟩ := C.res
  cases o with
  | error e => 
    have := (h1.2.resolve_right fun h => hbad h.2).1
    rw [this]
  | ok p => exact absurd ⟨h1.1, h1.2.1⟩ hbad

theorem retireSlab_errno {g : Cfg} {base cls : Nat} {ch : Choice} {c c' : SC} {vm vm' : Vm} {e e' : Errno} {m : Nat}
    (h : retireSlab g base cls ch c vm e m = .ok (c', vm', e')) : e' = e ∨ e' = ch.label 0 e := by
  unfold retireSlab at h
  simp only at h
  by_cases k : add64 (c.unlinkPartial m).emptyTotal (g.slabSize cls) > g.maxEmptySlabsTotal
  · rw [if_pos k, Res.bind_eq_ok] at h
    obtain ⟨⟨vm1, failed⟩, _, h⟩ := h
    simp only at h
    by_cases kf : failed = true
    · rw [if_pos kf, Res.bind_eq_ok] at h
      obtain ⟨vm2, _, h⟩ := h
      cases h; exact Or.inl rfl
    · rw [if_neg kf, Res.bind_eq_ok] at h
      obtain ⟨c2, _, h⟩ := h
      cases h; exact Or.inr rfl
  · rw [if_neg k] at h
    cases h; exact Or.inl rfl

theorem deallocateSmall_errno {g : Cfg} {base cls p : Nat} {ex : Option Nat} {ch : Choice} {c c' : SC} {vm vm' : Vm} {e e' : Errno}
    (h : deallocateSmall g base cls p ex ch c vm e = .ok (c', vm', e')) : e' = e ∨ e' = ch.label 0 e := by
  unfold deallocateSmall at h
  by_cases k : ex.any (· ≠ g.classSize cls) = true
  · rw [if_pos k] at h; cases h
  · rw [if_neg k] at h
    simp only [Res.bind_eq_ok] at h
    obtain ⟨⟨m, slot⟩, _, vm1, _, ⟨c1, out⟩, _, h⟩ := h
    cases out with
    | none => cases h; exact Or.inl rfl
    | some x =>
      obtain ⟨m, slot⟩ := x
      simp only at h
      unfold releaseSlot at h
      simp only at h
      by_cases k : ((c1.linkPartial (g.slots cls) m).clearUsed m slot).isFreeSlab m = true
      · rw [if_pos k] at h; exact retireSlab_errno h
      · rw [if_neg k] at h; cases h; exact Or.inl rfl

/-- No naming call made by the allocator fails (they are only made with `CONFIG_LABEL_MEMORY`). -/
def LabelsWork (chs : Nat → Choice) : Prop := ∀ n k, (chs n).labelErr k = none

/-- C25, partial. `free` leaves errno as it is. What is missing: for a small block, a failing naming call (which only
happens with `CONFIG_LABEL_MEMORY`) can overwrite errno, see `c25_free_changes_errno`. -/
theorem c25_free_keeps_partial (hg : Good g ar) (r : Reach g ro ar calm D h s) {p : Nat} {s' : Sys} {x : Ret} (hp : p < W64)
    (he : ∀ n, Env calm (chs n)) (hc : s.call ro ar t (.free p) chs = .ok (s', x)) (hl : LabelsWork chs ∨ ¬ (ro.slabStart ≤ p ∧ p < ro.slabEnd)) (u : Nat) :
    (s'.tl u).errno = (s.tl u).errno := by
  obtain ⟨w, w', C, _⟩ := r.called hg (c := .free p) hp he hc
  by_cases hu : u = t
  · subst hu
    obtain ⟨_, ⟨_, h1, _⟩ | ⟨h0, h1 | ⟨h1, _⟩, _⟩⟩ := C.res
    · rw [h1]
    · exact h1
    · have hl : LabelsWork chs := hl.resolve_right fun h => h (by
        unfold Ro.inSlab at h1
        simp only [Bool.and_eq_true, decide_eq_true_eq] at h1
        exact ⟨h1.2, h1.1⟩)
      unfold Sys.call at hc
      revert hc
      cases hr : ((Call.free p).prog ro (ar u)).run chs s.σ (s.tl u) with
      | ok y =>
        obtain ⟨σ1, tl1, x1⟩ := y
        intro hc
        cases hc
        show (if u = u then tl1 else _).errno = _
        rw [if_pos rfl]
        unfold Call.prog hFree at hr
        simp only at hr
        rw [if_neg h0, if_pos h1] at hr
        simp only [Prog.bind_assoc] at hr
        unfold unsealMeta at hr
        rw [run_one (h := rfl)] at hr
        revert hr
        unfold smallFree critical
        show (Prog.act _ _).run _ _ _ = _ → _
        unfold Prog.run
        simp only [Bool.not_true, Bool.and_false, Bool.false_eq_true, if_false]
        by_cases kb : nClasses ro.g ≤ (ro.sizeClassOf p).2 ∨ ro.g.nArena ≤ (ro.sizeClassOf p).1
        · rw [if_pos kb]; intro hr; cases hr
        · rw [if_neg kb]
          cases hd : deallocateSmall ro.g (ro.regionStart (ro.sizeClassOf p).1 (ro.sizeClassOf p).2) (ro.sizeClassOf p).2 p none (chs (0 + 1))
              (s.σ.sc (ro.sizeClassOf p).1 (ro.sizeClassOf p).2) s.σ.vm (s.tl u).errno with
          | ok y =>
            obtain ⟨c1, vm1, e1⟩ := y
            intro hr
            cases hr
            rcases deallocateSmall_errno hd with rfl | rfl
            · rfl
            · show Choice.label _ _ _ = _
              unfold Choice.label
              rw [hl]; rfl
          | _ => intro hr; cases hr
      | _ => intro hc; cases hc
  · exact congrArg Tl.errno (C.others u hu)

/-- The default configuration with one arena, without extended size classes and write after free check, and with the
smallest class regions that are allowed. -/
def tinyCfg : Cfg := { Cfg.default with classRegionSize := 1048576, nArena := 1, extended := false, writeAfterFreeCheck := false }
def tinyRo : Ro := ⟨tinyCfg, 0x10000000000, fun _ _ => PAGE⟩

theorem tiny_good : Good tinyCfg (fun _ => 0) := ⟨by constructor <;> decide, by decide, fun _ => by decide⟩
theorem tiny_init : Initialised tinyCfg tinyRo (exStOf 77594624) := exInitOf (by decide) (by decide) (by decide) (by decide)

/-- 97 times `malloc(16385)`, mapped at different places. -/
def tinyActs : List ExAct := (List.range 97).map fun i => .call 0 (.malloc 16385) (0x100000000000 + i * 0x100000)

theorem tiny_any (as : List ExAct) (P : List Ev → Sys → Bool)
    (e : ((runActs tinyRo (fun _ => 0) true (fun _ _ _ => true) as [] ⟨exStOf 77594624, fun _ => ⟨0, false⟩⟩).any fun x => P x.1 x.2) = true) :
    ∃ h s, Reach tinyCfg tinyRo (fun _ => 0) true anyClient h s ∧ P h s = true := by
  rw [Option.any_eq_true] at e
  obtain ⟨⟨h, s⟩, h1, h2⟩ := e
  exact ⟨h, s, runActs_reach (fun _ _ _ _ => trivial) (.init tiny_init fun _ => rfl) h1, h2⟩

/-- The call returned NULL and errno is 0. -/
def returnsNull (r : Res (Sys × Ret)) : Bool :=
  match r with
  | .ok (s', .ptr p) => decide (p = 0) && decide ((s'.tl 0).errno = 0)
  | _ => false

theorem returnsNull_spec {r : Res (Sys × Ret)} (h : returnsNull r = true) : ∃ s', r = .ok (s', .ptr 0) ∧ (s'.tl 0).errno = 0 := by
  unfold returnsNull at h
  split at h
  · rw [Bool.and_eq_true, decide_eq_true_eq, decide_eq_true_eq] at h
    obtain ⟨rfl, h⟩ := h
    exact ⟨_, rfl, h⟩
  · cases h

/-- C25. The full statement is false: here `malloc` returns NULL although every system call succeeds, and leaves errno at
0. The table of regions may not grow (its size is limited to a number derived from the class region size). -/
theorem c25_errno_unset : ∃ h s, Reach tinyCfg tinyRo (fun _ => 0) true anyClient h s ∧
    ∃ chs : Nat → Choice, (∀ n, Env true (chs n)) ∧ ∃ s', s.call tinyRo (fun _ => 0) 0 (.malloc 16385) chs = .ok (s', .ptr 0) ∧
      (s'.tl 0).errno = 0 := by
  obtain ⟨h, s, h1, h2⟩ := tiny_any tinyActs (fun _ s => returnsNull (s.call tinyRo (fun _ => 0) 0 (.malloc 16385) fun _ => exAt 0x200000000000))
    (by decide +kernel)
  obtain ⟨s', h3, h4⟩ := returnsNull_spec h2
  exact ⟨h, s, h1, fun _ => exAt 0x200000000000, fun _ => exAt_env _ _, s', h3, h4⟩

/-- C25. The full statement is false for `free`, too: here a failing naming call overwrites errno. -/
theorem c25_free_changes_errno : ∃ h s, Reach (exCfg false false false) (exRo false false false) (fun t => t % 4) true anyClient h s ∧
    ∃ p, (live h p).isSome ∧ (s.tl 0).errno = 0 ∧ ∃ chs : Nat → Choice, (∀ n, Env true (chs n)) ∧
      ∃ s' x, s.call (exRo false false false) (fun t => t % 4) 0 (.free p) chs = .ok (s', x) ∧ (s'.tl 0).errno = EINVAL := by
  obtain ⟨h, s, h1, h2⟩ := ex_any0 (stats := false) (sealed := false) (calm := true) [.call 0 (.malloc 80000) 0, .call 0 (.malloc 80000) 0, .call 0 (.free 4191888084992) 0]
    (fun h s => (blocks h).any fun p => (live h p).isSome && decide ((s.tl 0).errno = 0) &&
      (match s.call (exRo false false false) (fun t => t % 4) 0 (.free p) (fun _ => { Choice.quiet with labelErr := fun _ => some EINVAL }) with
        | .ok (s', _) => decide ((s'.tl 0).errno = EINVAL)
        | _ => false))
    (by decide +kernel)
  rw [List.any_eq_true] at h2
  obtain ⟨p, _, h2⟩ := h2
  rw [Bool.and_eq_true, Bool.and_eq_true, decide_eq_true_eq] at h2
  obtain ⟨⟨h2, h3⟩, h4⟩ := h2
  refine ⟨h, s, h1, p, h2, h3, fun _ => { Choice.quiet with labelErr := fun _ => some EINVAL }, fun _ => Env.quiet true, ?_⟩
  revert h4
  cases s.call (exRo false false false) (fun t => t % 4) 0 (.free p) (fun _ => { Choice.quiet with labelErr := fun _ => some EINVAL }) with
  | ok y =>
    obtain ⟨s', x⟩ := y
    simp only [decide_eq_true_eq]
    exact fun h => ⟨s', x, rfl, h⟩
  | _ => intro h; cases h

/-- The results are the same (used for results of these kinds only). -/
def Ret.is : Ret → Ret → Bool
  | .ptr p, .ptr q => decide (p = q)
  | .unit, .unit => true
  | .memalign (.error e), .memalign (.error f) => decide (e = f)
  | _, _ => false

/-- The call returns `x`, and errno is `e`. -/
def callIs (x : Ret) (e : Errno) (r : Res (Sys × Ret)) : Bool :=
  match r with
  | .ok (s', y) => y.is x && decide ((s'.tl 0).errno = e)
  | _ => false

theorem callIs_spec {x : Ret} {e : Errno} {r : Res (Sys × Ret)} (h : callIs x e r = true) : ∃ s', r = .ok (s', x) ∧ (s'.tl 0).errno = e := by
  unfold callIs at h
  split at h
  · rename_i s' y
    rw [Bool.and_eq_true, decide_eq_true_eq] at h
    have hy : y = x := by
      have := h.1
      unfold Ret.is at this
      split at this <;> simp only [decide_eq_true_eq, Bool.false_eq_true] at this <;> first | rw [this] | rfl | cases this
    exact ⟨s', by rw [hy], h.2⟩
  · cases h

/-- Every case of the theorems above occurs. With a live block that holds data: `malloc(200000)` fails since the system has
no memory; `malloc`, `calloc` and `realloc` of too much fail; alignments of 48, and of 4 for `posix_memalign`, are rejected;
`free` of the live block returns with errno as before (here 5). -/
example : ∃ h s, Reach (exCfg false false) (exRo false false) (fun t => t % 4) false anyClient h s ∧ live h exA = some ⟨100, none⟩ ∧
    Usable (exRo false false) s.σ exA 104 ∧ s.byte exA = 7#8 ∧ (s.tl 0).errno = 5 ∧
    ∃ chs : Nat → Choice, (∀ n, Env false (chs n)) ∧ LabelsWork chs ∧
      (∃ s', s.call (exRo false false) (fun t => t % 4) 0 (.malloc 200000) chs = .ok (s', .ptr 0) ∧ (s'.tl 0).errno = ENOMEM) ∧
      (∃ s', s.call (exRo false false) (fun t => t % 4) 0 (.malloc (2 ^ 63)) chs = .ok (s', .ptr 0) ∧ (s'.tl 0).errno = ENOMEM) ∧
      (∃ s', s.call (exRo false false) (fun t => t % 4) 0 (.calloc (2 ^ 32) (2 ^ 32)) chs = .ok (s', .ptr 0) ∧ (s'.tl 0).errno = ENOMEM) ∧
      (∃ s', s.call (exRo false false) (fun t => t % 4) 0 (.realloc exA (2 ^ 63)) chs = .ok (s', .ptr 0) ∧ (s'.tl 0).errno = ENOMEM) ∧
      (∃ s', s.call (exRo false false) (fun t => t % 4) 0 (.alignedAlloc 48 100) chs = .ok (s', .ptr 0) ∧ (s'.tl 0).errno = EINVAL) ∧
      (∃ s', s.call (exRo false false) (fun t => t % 4) 0 (.posixMemalign 4 100) chs = .ok (s', .memalign (.error EINVAL))) ∧
      ∃ s', s.call (exRo false false) (fun t => t % 4) 0 (.free exA) chs = .ok (s', .unit) ∧ (s'.tl 0).errno = 5 := by
  let chs : Nat → Choice := fun _ => { exAt exMapAt with sys := fun _ => .enomem }
  let ro := exRo false false
  obtain ⟨h, s, h1, h2⟩ := ex_any (stats := false) (sealed := false) (calm := false) [.call 0 (.malloc 100) 0, .store exA 7, .errno 0 5]
    (fun h s => decide (live h exA = some ⟨100, none⟩) && decide (usableB ro s.σ exA = some 104) && decide (s.byte exA = 7#8) && decide ((s.tl 0).errno = 5) &&
      callIs (.ptr 0) ENOMEM (s.call ro (fun t => t % 4) 0 (.malloc 200000) chs) &&
      callIs (.ptr 0) ENOMEM (s.call ro (fun t => t % 4) 0 (.malloc (2 ^ 63)) chs) &&
      callIs (.ptr 0) ENOMEM (s.call ro (fun t => t % 4) 0 (.calloc (2 ^ 32) (2 ^ 32)) chs) &&
      callIs (.ptr 0) ENOMEM (s.call ro (fun t => t % 4) 0 (.realloc exA (2 ^ 63)) chs) &&
      callIs (.ptr 0) EINVAL (s.call ro (fun t => t % 4) 0 (.alignedAlloc 48 100) chs) &&
      callIs (.memalign (.error EINVAL)) 5 (s.call ro (fun t => t % 4) 0 (.posixMemalign 4 100) chs) &&
      callIs (.unit) 5 (s.call ro (fun t => t % 4) 0 (.free exA) chs)) (by decide +kernel)
  simp only [Bool.and_eq_true, decide_eq_true_eq] at h2
  obtain ⟨⟨⟨⟨⟨⟨⟨⟨⟨⟨a1, a2⟩, a3⟩, a4⟩, b1⟩, b2⟩, b3⟩, b4⟩, b5⟩, b6⟩, b7⟩ := h2
  refine ⟨h, s, h1, a1, usableB_usable a2, a3, a4, chs, fun _ => ⟨by simp [chs, exAt, Choice.quiet], fun e => by cases e⟩, fun _ _ => rfl, ?_⟩
  obtain ⟨s6, b6, _⟩ := callIs_spec b6
  exact ⟨callIs_spec b1, callIs_spec b2, callIs_spec b3, callIs_spec b4, callIs_spec b5, ⟨s6, b6⟩, callIs_spec b7⟩

end HM
