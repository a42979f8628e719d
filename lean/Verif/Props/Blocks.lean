import Verif.Facts
import Verif.Example
/-
C01, C02, C03, C13, C43. What holds for live blocks in every reachable state, for every application (also one that writes
anywhere and passes wild pointers), every number of threads and every behaviour of the environment.
-/
namespace HM

variable {g : Cfg} {ro : Ro} {ar : Nat → Nat} {calm : Bool} {D : Client} {h : List Ev} {s : Sys}

/-! ### C01 -/

/-- C01. The usable size of a live block is at least the size requested for it, and every usable byte can be read and
written. -/
theorem c01_usable_size (hg : Good g ar) (r : Reach g ro ar calm D h s) {p u : Nat} {i : Info} (hl : live h p = some i)
    (hu : Usable ro s.σ p u) : i.size ≤ u ∧ ∀ x, p ≤ x → x < p + u → s.access x := by
  obtain ⟨hro, _⟩ := r.roOk hg
  obtain ⟨w, f, _⟩ := r.fits hg
  rw [← f.σ] at hu
  have h1 := hu.is hro f.linked (by rw [hl]; rfl)
  obtain ⟨v, h2, h3⟩ := f.linked.usable hl
  rw [h2.uniq hro f.linked.inv h1] at h3
  refine ⟨h3, fun x q1 q2 => ?_⟩
  show s.σ.vm.prot _ = _
  rw [← f.σ]; exact h1.rw hro f.linked q1 q2

/-- C01. The bytes requested can be read and written, even if the application has damaged the canary of the block (so
that `malloc_usable_size` would abort). -/
theorem c01_requested_bytes (hg : Good g ar) (r : Reach g ro ar calm D h s) {p x : Nat} {i : Info} (hl : live h p = some i)
    (h1 : p ≤ x) (h2 : x < p + i.size) : s.access x := by
  obtain ⟨hro, _⟩ := r.roOk hg
  obtain ⟨w, f, _⟩ := r.fits hg
  obtain ⟨v, h3, h4⟩ := f.linked.usable hl
  show s.σ.vm.prot _ = _
  rw [← f.σ]; exact h3.rw hro f.linked h1 (by omega)

/-- C01. When an allocation function returns a block, its usable size exists and is at least what was asked for. -/
theorem c01_new_block (hg : Good g ar) (r : Reach g ro ar calm D h s) {t p : Nat} {c : Call} {chs : Nat → Choice} {s' : Sys} {x : Ret} {i : Info}
    (hok : c.Ok) (he : ∀ n, Env calm (chs n)) (hc : s.call ro ar t c chs = .ok (s', x)) (hr : c.request = some i) (hx : x.block = some p) :
    ∃ u, Usable ro s'.σ p u ∧ i.size ≤ u ∧ ∀ y, p ≤ y → y < p + u → s'.access y := by
  obtain ⟨hro, _⟩ := r.roOk hg
  obtain ⟨w, w', C, _⟩ := r.called hg hok he hc
  have hl : live (.call t c x :: h) p = some i := by
    show liveStep _ _ _ = _
    rw [liveStep_request hr hx, if_pos rfl]
  obtain ⟨u, h1, h2⟩ := C.post.linked.usable hl
  refine ⟨u, ?_, h2, fun y q1 q2 => ?_⟩
  · rw [← C.post.σ]
    exact usable_complete hro C.post.linked (by rw [hl]; rfl) h1 (C.res.fresh hro hr hx).canary
  · show s'.σ.vm.prot _ = _
    rw [← C.post.σ]; exact h1.rw hro C.post.linked q1 q2

/-- C01. In an application without memory errors, every live block has a usable size (so that the first theorem applies
to every block at any time, also to those `realloc` returned). -/
theorem c01_usable_exists (hg : Good g ar) (r : Reach g ro ar calm D h s) (hD : ∀ h s a, D h s a → goodClient ro h s a)
    {p : Nat} (hl : (live h p).isSome) : ∃ u, Usable ro s.σ p u := by
  obtain ⟨hro, _⟩ := r.roOk hg
  obtain ⟨w, f, _, hc⟩ := r.fits hg
  obtain ⟨i, hi⟩ := Option.isSome_iff_exists.mp hl
  obtain ⟨u, h1, _⟩ := f.linked.usable hi
  rw [← f.σ]
  exact ⟨u, usable_complete hro f.linked hl h1 ((hc hD).canary_ok f.linked.inv)⟩

/-- The hypotheses are met: two threads, small, large and over-aligned blocks, reallocation, stores. -/
example : ∃ h s, Reach (exCfg false false) (exRo false false) (fun t => t % 4) false (goodClient (exRo false false)) h s ∧
    live h exA = some ⟨100, none⟩ ∧ Usable (exRo false false) s.σ exA 104 ∧
    live h exBig = some ⟨200000, none⟩ ∧ Usable (exRo false false) s.σ exBig 229376 ∧
    live h 2473901166592 = some ⟨1000, none⟩ := by
  obtain ⟨h, s, h1, h2⟩ := ex_good (stats := false) (sealed := false) (calm := false)
    [.call 0 (.malloc 100) 0, .call 0 (.malloc 100) 0, .call 1 (.malloc 100) 0, .store exA 7, .call 0 (.malloc 200000) exMapAt,
     .store exBig 9, .call 0 (.realloc exB 1000) 0, .call 2 (.alignedAlloc 8192 100) 0x110000000000]
    (fun h s => decide (live h exA = some ⟨100, none⟩) && decide (usableB (exRo false false) s.σ exA = some 104) &&
      decide (live h exBig = some ⟨200000, none⟩) && decide (usableB (exRo false false) s.σ exBig = some 229376) &&
      decide (live h 2473901166592 = some ⟨1000, none⟩))
    (by decide +kernel)
  simp only [Bool.and_eq_true, decide_eq_true_eq] at h2
  obtain ⟨⟨⟨⟨q1, q2⟩, q3⟩, q4⟩, q5⟩ := h2
  exact ⟨h, s, h1, q1, usableB_usable q2, q3, usableB_usable q4, q5⟩

/-! ### C02 -/

/-- C02. The ranges of two live blocks, each with its usable bytes and the canary behind them, are disjoint. -/
theorem c02_disjoint (hg : Good g ar) (r : Reach g ro ar calm D h s) {p q u v : Nat} (hne : p ≠ q) (hp : (live h p).isSome)
    (hq : (live h q).isSome) (hu : Usable ro s.σ p u) (hv : Usable ro s.σ q v) (x : Nat) :
    ¬ ((p ≤ x ∧ x < p + u + g.canarySize) ∧ (q ≤ x ∧ x < q + v + g.canarySize)) := by
  obtain ⟨hro, eg⟩ := r.roOk hg
  obtain ⟨w, f, _⟩ := r.fits hg
  rw [← f.σ] at hu hv
  rw [← eg]
  rintro ⟨⟨q1, q2⟩, q3, q4⟩
  exact hne ((hu.is hro f.linked hp).disjoint hro f.linked (hv.is hro f.linked hq) q1 q2 q3 q4)

/-- C02. The ranges requested for two live blocks are disjoint, even if canaries are damaged. -/
theorem c02_requested_disjoint (hg : Good g ar) (r : Reach g ro ar calm D h s) {p q : Nat} {i j : Info} (hne : p ≠ q)
    (hp : live h p = some i) (hq : live h q = some j) (x : Nat) : ¬ ((p ≤ x ∧ x < p + i.size) ∧ (q ≤ x ∧ x < q + j.size)) := by
  obtain ⟨hro, _⟩ := r.roOk hg
  obtain ⟨w, f, _⟩ := r.fits hg
  obtain ⟨u, h1, h2⟩ := f.linked.usable hp
  obtain ⟨v, h3, h4⟩ := f.linked.usable hq
  rintro ⟨⟨q1, q2⟩, q3, q4⟩
  exact hne (h1.disjoint hro f.linked h3 q1 (by omega) q3 (by omega))

/-- C02. A block returned by an allocation function (other than `realloc`) was not live before. -/
theorem c02_new_block (hg : Good g ar) (r : Reach g ro ar calm D h s) {t p : Nat} {c : Call} {chs : Nat → Choice} {s' : Sys} {x : Ret} {i : Info}
    (hok : c.Ok) (he : ∀ n, Env calm (chs n)) (hc : s.call ro ar t c chs = .ok (s', x)) (hr : c.request = some i) (hx : x.block = some p) :
    live h p = none := by
  obtain ⟨hro, _⟩ := r.roOk hg
  obtain ⟨w, w', C, _⟩ := r.called hg hok he hc
  have h1 := (C.res.fresh hro hr hx).old
  cases e : live h p with
  | none => rfl
  | some i => exact absurd (C.pre.linked.mine (t := t) (p := p) (by rw [e]; rfl)).blk h1

/-- C02. A block returned by `realloc` for a live block is the old one or was not live before. -/
theorem c02_realloc_block (hg : Good g ar) (r : Reach g ro ar calm D h s) {t p q n : Nat} {chs : Nat → Choice} {s' : Sys} {x : Ret}
    (hok : (Call.realloc p n).Ok) (he : ∀ n, Env calm (chs n)) (hc : s.call ro ar t (.realloc p n) chs = .ok (s', x)) (hx : x.block = some q)
    (hp : p = 0 ∨ (live h p).isSome) : q = p ∨ live h q = none := by
  obtain ⟨hro, _⟩ := r.roOk hg
  obtain ⟨w, w', C, _⟩ := r.called hg hok he hc
  obtain ⟨o, rfl, h1⟩ := C.res
  obtain rfl := block_retPtr hx
  have key : (w.lend t).G.blk q ≠ .thr t → live h q = none := fun h2 => by
    cases e : live h q with
    | none => rfl
    | some i => exact absurd (C.pre.linked.mine (t := t) (p := q) (by rw [e]; rfl)).blk h2
  rcases h1 with ⟨_, h1⟩ | ⟨h0, sz, _, _, h1 | ⟨h1, _⟩⟩
  · exact Or.inr (key (h1.fresh hro).old)
  · by_cases e : q = p
    · exact Or.inl e
    · exact Or.inr (key (h1.moved e).1)
  · have := (C.pre.linked.mine (t := t) (hp.resolve_left h0)).blk
    rw [h1] at this; cases this

/-- Two live blocks that are neighbours: the second begins right behind the canary of the first. -/
example : ∃ h s, Reach (exCfg false false) (exRo false false) (fun t => t % 4) false anyClient h s ∧
    (live h exA).isSome ∧ (live h exB).isSome ∧ Usable (exRo false false) s.σ exA 104 ∧ Usable (exRo false false) s.σ exB 104 ∧
    exA + 104 + (exCfg false false).canarySize = exB := by
  obtain ⟨h, s, h1, h2⟩ := ex_any (stats := false) (sealed := false) (calm := false)
    [.call 0 (.malloc 100) 0, .call 4 (.malloc 97) 0]
    (fun h s => (live h exA).isSome && (live h exB).isSome && decide (usableB (exRo false false) s.σ exA = some 104) &&
      decide (usableB (exRo false false) s.σ exB = some 104))
    (by decide +kernel)
  simp only [Bool.and_eq_true, decide_eq_true_eq] at h2
  obtain ⟨⟨⟨q1, q2⟩, q3⟩, q4⟩ := h2
  exact ⟨h, s, h1, q1, q2, usableB_usable q3, usableB_usable q4, by decide⟩

/-! ### C03 -/

/-- C03. Live blocks are 16-byte aligned, and aligned as requested when they were created (`valloc` and `pvalloc` request
4096). -/
theorem c03_alignment (hg : Good g ar) (r : Reach g ro ar calm D h s) {p : Nat} {i : Info} (hl : live h p = some i) :
    p % 16 = 0 ∧ ∀ al, i.align = some al → p % al = 0 := by
  obtain ⟨hro, _⟩ := r.roOk hg
  obtain ⟨w, f, _⟩ := r.fits hg
  obtain ⟨u, h1, _⟩ := f.linked.usable hl
  refine ⟨h1.align16 hro f.linked, fun al e => ?_⟩
  have h2 := (f.linked.sized p i hl).2
  rw [e] at h2
  exact h2.2.1

/-- Blocks with alignments below and above the page size. -/
example : ∃ h s, Reach (exCfg false false) (exRo false false) (fun t => t % 4) false anyClient h s ∧
    (∃ p, live h p = some ⟨100, some 64⟩) ∧ (∃ p, live h p = some ⟨100, some 65536⟩) ∧ ∃ p, live h p = some ⟨4096, some 4096⟩ := by
  obtain ⟨h, s, h1, h2⟩ := ex_any (stats := false) (sealed := false) (calm := false)
    [.call 0 (.alignedAlloc 64 100) 0, .call 0 (.posixMemalign 65536 100) 0x100000000000, .call 0 (.pvalloc 1) 0]
    (fun h s => ((blocks h).any fun p => decide (live h p = some ⟨100, some 64⟩)) &&
      ((blocks h).any fun p => decide (live h p = some ⟨100, some 65536⟩)) && (blocks h).any fun p => decide (live h p = some ⟨4096, some 4096⟩))
    (by decide +kernel)
  simp only [Bool.and_eq_true, List.any_eq_true, decide_eq_true_eq] at h2
  obtain ⟨⟨⟨p1, _, q1⟩, p2, _, q2⟩, p3, _, q3⟩ := h2
  exact ⟨h, s, h1, ⟨p1, q1⟩, ⟨p2, q2⟩, p3, q3⟩

/-! ### C13 -/

/-- C13. No byte of the slot of a live zero byte block can be read or written. -/
theorem c13_inaccessible (hg : Good g ar) (r : Reach g ro ar calm D h s) {p x : Nat} (hl : live h p = some ⟨0, none⟩)
    (h1 : p ≤ x) (h2 : x < p + 16) : ¬ s.access x := by
  obtain ⟨hro, _⟩ := r.roOk hg
  obtain ⟨w, f, _⟩ := r.fits hg
  have h3 := (f.linked.sized p _ hl).2
  have e : adjustSizeForCanary ro.g 0 = 0 := by unfold adjustSizeForCanary; rw [if_neg (by omega)]
  simp only [e] at h3
  rcases h3 with ⟨h3, a, i, k, h4⟩ | ⟨h3, _⟩
  · have hz : ro.g.classSize (ro.g.clsOf 0) = 0 := (clsOf_zero h3).mp rfl
    obtain ⟨q1, q2, _⟩ := h4.lt f.linked.inv
    obtain ⟨ha, hc, rfl, _⟩ := h4
    have := (classGeo ro.g hc).size_ge
    have h5 := ((f.linked.inv.clsVm a _ ha hc).off i x q1 (fun h => h.2 hz) (slot_range_slab hc q2 (by unfold inRange; omega))).1
    show s.σ.vm.prot _ ≠ _
    rw [← f.σ, h5]; simp
  · omega

/-- C13. `malloc(0)` returns a pointer that is not live yet. -/
theorem c13_distinct (hg : Good g ar) (r : Reach g ro ar calm D h s) {t p : Nat} {chs : Nat → Choice} {s' : Sys}
    (he : ∀ n, Env calm (chs n)) (hc : s.call ro ar t (.malloc 0) chs = .ok (s', .ptr p)) (hp : p ≠ 0) :
    live h p = none ∧ live (.call t (.malloc 0) (.ptr p) :: h) p = some ⟨0, none⟩ := by
  have hb : (Ret.ptr p).block = some p := if_neg hp
  refine ⟨c02_new_block (c := .malloc 0) hg r (show 0 < W64 by decide) he hc rfl hb, ?_⟩
  show liveStep _ _ _ = _
  rw [liveStep_request rfl hb, if_pos rfl]

/-- Two zero byte blocks. -/
example : ∃ h s, Reach (exCfg false false) (exRo false false) (fun t => t % 4) false anyClient h s ∧
    ∃ p q, p ≠ q ∧ live h p = some ⟨0, none⟩ ∧ live h q = some ⟨0, none⟩ := by
  obtain ⟨h, s, h1, h2⟩ := ex_any (stats := false) (sealed := false) (calm := false)
    [.call 0 (.malloc 0) 0, .call 0 (.malloc 0) 0]
    (fun h s => ((blocks h).any fun p => (blocks h).any fun q => decide (p ≠ q) && (decide (live h p = some ⟨0, none⟩) && decide (live h q = some ⟨0, none⟩))))
    (by decide +kernel)
  simp only [Bool.and_eq_true, List.any_eq_true, decide_eq_true_eq] at h2
  obtain ⟨p, _, q, _, q1, q2, q3⟩ := h2
  exact ⟨h, s, h1, p, q, q1, q2, q3⟩

/-! ### C43 -/

/-- C43. A call changes no byte and no access right of a live block other than the one it is asked to free or reallocate;
its usable size stays the same. -/
theorem c43_others_untouched (hg : Good g ar) (r : Reach g ro ar calm D h s) {t p u : Nat} {c : Call} {chs : Nat → Choice} {s' : Sys} {x : Ret}
    (hok : c.Ok) (he : ∀ n, Env calm (chs n)) (hc : s.call ro ar t c chs = .ok (s', x)) (hp : (live h p).isSome)
    (hn : ¬ c.hands p) (hu : Usable ro s.σ p u) :
    Usable ro s'.σ p u ∧ live (.call t c x :: h) p = live h p ∧ ∀ y, p ≤ y → y < p + u → s'.byte y = s.byte y ∧ s.access y ∧ s'.access y := by
  obtain ⟨hro, _⟩ := r.roOk hg
  obtain ⟨w, w', C, _⟩ := r.called hg hok he hc
  have k := C.keep p hp hn
  rw [← C.pre.σ] at hu
  have h1 := hu.is hro C.pre.linked hp
  have h2 : UsableIs ro w' p u := k.usable h1
  have hl : live (.call t c x :: h) p = live h p := by
    show liveStep _ _ _ = _
    have hb : (w.lend t).G.blk p = .thr t := (C.pre.linked.mine (t := t) hp).blk
    cases hq : c.request with
    | some i =>
      cases hx : x.block with
      | none => cases c <;> first | (cases hq; done) | (simp only [liveStep, hx, Call.request])
      | some q =>
        rw [liveStep_request hq hx]
        by_cases e : p = q
        · subst e; exact absurd hb (C.res.fresh hro hq hx).old
        · rw [if_neg e]
    | none =>
      have h3 := C.res
      cases c with
      | free q => exact if_neg fun e => hn (Or.inl (by rw [e]))
      | freeSized q n => exact if_neg fun e => hn (Or.inr (Or.inl ⟨n, by rw [e]⟩))
      | realloc q n =>
        have hne : p ≠ q := fun e => hn (Or.inr (Or.inr ⟨n, by rw [e]⟩))
        obtain ⟨o, rfl, h3⟩ := h3
        cases o with
        | none => rfl
        | some z =>
          have hz0 : z ≠ 0 := by
            rcases h3 with ⟨_, h3⟩ | ⟨h0, _, _, _, h3 | ⟨_, _, rfl, _⟩⟩
            · have h4 := C.post.linked.inv
              have h5 : w'.G.blk z ≠ .nobody := by rcases h3 with ⟨_, m⟩ | ⟨_, m⟩ <;> rw [m.blk] <;> simp
              exact fun e => h5 (by rw [e]; exact blk_zero hro h4)
            · exact mine_ne_zero hro C.post.linked.inv h3.mine
            · exact h0
          have hzb : (retPtr (some z)).block = some z := if_neg hz0
          have hzp : p ≠ z := by
            rintro rfl
            rcases h3 with ⟨_, h3⟩ | ⟨h0, _, _, _, h3 | ⟨_, _, e, _⟩⟩
            · exact (h3.fresh hro).old hb
            · exact (h3.moved hne).1 hb
            · exact hne e
          simp only [liveStep, hzb]
          by_cases h0 : q = 0
          · rw [if_pos h0]; exact if_neg hzp
          · rw [if_neg h0]
            cases live h q with
            | none => rfl
            | some i => simp only; rw [if_neg hzp, if_neg hne]
      | _ => first | rfl | cases hq
  refine ⟨?_, hl, fun y q1 q2 => ⟨?_, ?_, ?_⟩⟩
  · rw [← C.post.σ]
    refine usable_complete hro C.post.linked (h2.live hro C.post.linked) h2 fun hb => ?_
    have hb : CanaryBad ro w p := k.canary hro C.post.linked.inv h1 hb
    rcases usable_sound hro C.pre.linked hu with ⟨rfl, _⟩ | ⟨_, _, _, h4⟩
    · exact h1.pos hro C.pre.linked rfl
    · obtain ⟨h5, a, c, i, j, h6, h7, h9⟩ := hb
      exact h9 (h4 _ _ _ _ h6 h7 h5)
  · show s'.σ.vm.mem _ = s.σ.vm.mem _
    rw [← C.post.σ, ← C.pre.σ]
    exact k.bytes hro (C.pre.linked.lend t) h1 q1 q2
  · show s.σ.vm.prot _ = _
    rw [← C.pre.σ]; exact h1.rw hro C.pre.linked q1 q2
  · show s'.σ.vm.prot _ = _
    rw [← C.post.σ]; exact h2.rw hro C.post.linked q1 q2

/-- A store outside of a block and its canary. -/
theorem usable_store (hg : Good g ar) (r : Reach g ro ar calm D h s) {p u y : Nat} {v : BitVec 8} (hp : (live h p).isSome)
    (hu : Usable ro s.σ p u) (hy : ¬ (p ≤ y ∧ y < p + u + g.canarySize)) : Usable ro { s.σ with vm := s.σ.vm.appStore y v } p u := by
  obtain ⟨hro, eg⟩ := r.roOk hg
  obtain ⟨w, f, _⟩ := r.fits hg
  rw [← f.σ] at hu ⊢
  have h1 := hu.is hro f.linked hp
  refine usable_complete (w := w.setMem (w.σ.vm.appStore y v)) hro (f.linked.store y v) hp h1 fun hb => ?_
  obtain ⟨h5, a, c, i, j, h6, h7, h9⟩ := hb
  replace h6 : IsSmall ro w.σ p a c i j := h6
  rcases usable_sound hro f.linked hu with ⟨rfl, _⟩ | ⟨_, _, _, h4⟩
  · exact h1.pos hro f.linked rfl
  · refine h9 ((h4 _ _ _ _ h6 h7 h5).congr fun m h8 => ?_)
    by_contra hn
    obtain ⟨e, _⟩ := appStore_mem _ _ _ _ hn
    have e2 : u = ro.g.slotSize c - 8 := by
      have := h1.uniq hro f.linked.inv (Or.inl ⟨a, c, i, j, h6, rfl⟩)
      rw [this, if_neg h7]
      show _ - ro.g.canarySize = _
      unfold Cfg.canarySize; rw [if_pos h5]
    have e3 : g.canarySize = 8 := by rw [← eg]; unfold Cfg.canarySize; rw [if_pos h5]
    have := (classGeo ro.g h6.2.1).size_ge
    omega

/-- C50. When someone else than the allocator maps, changes or releases a page, the live blocks keep their usable size, their
contents and their access rights. -/
theorem c50_others_harmless (hg : Good g ar) (r : Reach g ro ar calm D h s) {pg : Nat} {pr : Prot} {data : Nat → BitVec 8} (hq : Foreign h s.σ.vm pg)
    {p u : Nat} (hp : (live h p).isSome) (hu : Usable ro s.σ p u) :
    Usable ro { s.σ with vm := s.σ.vm.foreign pg pr data } p u ∧ ∀ y, p ≤ y → y < p + u →
      (s.σ.vm.foreign pg pr data).mem y = s.byte y ∧ (s.σ.vm.foreign pg pr data).prot (y / PAGE) = .rw := by
  obtain ⟨hro, _⟩ := r.roOk hg
  obtain ⟨w, f, _⟩ := r.fits hg
  have f' := (f.other hro hq pr data).1
  have k : KeepB ro w (w.foreign pg pr data) p := (foreign_outside f.linked.inv (f.not_ours hq) pr data).keep hro f.linked.inv p
  have e1 : w.σ.vm = s.σ.vm := congrArg St.vm f.σ
  have e2 : (w.foreign pg pr data).σ.vm = s.σ.vm.foreign pg pr data := congrArg St.vm f'.σ
  rw [← f.σ] at hu
  have h1 := hu.is hro f.linked hp
  have h2 := k.usable h1
  refine ⟨?_, fun y q1 q2 => ⟨?_, ?_⟩⟩
  · have e3 : (w.foreign pg pr data).σ = { s.σ with vm := s.σ.vm.foreign pg pr data } := f'.σ
    rw [← e3]
    refine usable_complete hro f'.linked hp h2 fun hb => ?_
    have hb : CanaryBad ro w p := k.canary hro f'.linked.inv h1 hb
    rcases usable_sound hro f.linked hu with ⟨rfl, _⟩ | ⟨_, _, _, h4⟩
    · exact h1.pos hro f.linked rfl
    · obtain ⟨h5, a, c, i, j, h6, h7, h9⟩ := hb
      exact h9 (h4 _ _ _ _ h6 h7 h5)
  · rw [← e2]
    show _ = s.σ.vm.mem y
    rw [← e1]
    exact k.bytes hro f.linked h1 q1 q2
  · rw [← e2]
    exact h2.rw hro f'.linked q1 q2

/-- C43. From one moment to any later one: as long as the application does not hand a live block to `free` or `realloc` and
does not itself store into it or its canary, the block stays live with the same usable size, contents and access rights,
whatever other calls are made by any thread and whatever is stored elsewhere. -/
theorem c43_history (hg : Good g ar) {h0 evs : List Ev} {s0 : Sys} (r0 : Reach g ro ar calm D h0 s0) (st : Steps ro ar calm D h0 s0 evs s)
    {p u : Nat} (hp : (live h0 p).isSome) (hu : Usable ro s0.σ p u) (hcall : ∀ t c x, .call t c x ∈ evs → ¬ c.hands p)
    (hstore : ∀ y v, .store y v ∈ evs → ¬ (p ≤ y ∧ y < p + u + g.canarySize)) :
    live (evs ++ h0) p = live h0 p ∧ Usable ro s.σ p u ∧ ∀ y, p ≤ y → y < p + u → s.byte y = s0.byte y ∧ s.access y := by
  induction st with
  | refl => exact ⟨rfl, hu, fun y q1 q2 => ⟨rfl, (c01_usable_size hg r0 (Option.some_get hp).symm hu).2 y q1 q2⟩⟩
  | @step evs s s' a e st ha hd hs ih =>
    obtain ⟨h1, h2, h3⟩ := ih (fun t c x m => hcall t c x (List.mem_cons_of_mem _ m)) fun y v m => hstore y v (List.mem_cons_of_mem _ m)
    have r := st.reach r0
    have hp' : (live (evs ++ h0) p).isSome := by rw [h1]; exact hp
    cases a with
    | call t c chs =>
      unfold Sys.step at hs
      simp only at hs
      revert hs
      cases hc : s.call ro ar t c chs with
      | ok q =>
        obtain ⟨s1, x⟩ := q
        intro hs
        cases hs
        obtain ⟨q1, q2, q3⟩ := c43_others_untouched hg r ha.1 ha.2 hc hp' (hcall t c x List.mem_cons_self) h2
        exact ⟨q2.trans h1, q1, fun y k1 k2 => ⟨(q3 y k1 k2).1.trans (h3 y k1 k2).1, (q3 y k1 k2).2.2⟩⟩
      | fatal m => intro hs; cases hs
      | segv => intro hs; cases hs
      | ub m => intro hs; cases hs
      | hang => intro hs; cases hs
    | store y v =>
      cases hs
      have hy := hstore y v List.mem_cons_self
      refine ⟨h1, usable_store hg r hp' h2 hy, fun z k1 k2 => ⟨?_, ?_⟩⟩
      · refine Eq.trans ?_ (h3 z k1 k2).1
        show (s.σ.vm.appStore y v).mem z = s.σ.vm.mem z
        by_contra hn
        obtain ⟨e, _⟩ := appStore_mem _ _ _ _ hn
        omega
      · show (s.σ.vm.appStore y v).prot _ = _
        rw [appStore_prot]; exact (h3 z k1 k2).2
    | errno t e =>
      cases hs
      exact ⟨h1, h2, h3⟩
  | @other evs s st pg pr data hq ih =>
    obtain ⟨h1, h2, h3⟩ := ih (fun t c x m => hcall t c x (List.mem_cons_of_mem _ m)) fun y v m => hstore y v (List.mem_cons_of_mem _ m)
    have hp' : (live (evs ++ h0) p).isSome := by rw [h1]; exact hp
    obtain ⟨q1, q2⟩ := c50_others_harmless hg (st.reach r0) hq hp' h2
    exact ⟨h1, q1, fun y k1 k2 => ⟨(q2 y k1 k2).1.trans (h3 y k1 k2).1, (q2 y k1 k2).2⟩⟩

/-- A block that stays untouched while its neighbours are allocated, overwritten, freed and reallocated by two threads. -/
example : ∃ h s, Reach (exCfg false false) (exRo false false) (fun t => t % 4) false (goodClient (exRo false false)) h s ∧
    live h exA = some ⟨100, none⟩ ∧ Usable (exRo false false) s.σ exA 104 ∧ s.byte exA = 7#8 := by
  obtain ⟨h, s, h1, h2⟩ := ex_good (stats := false) (sealed := false) (calm := false)
    [.call 0 (.malloc 100) 0, .store exA 7, .call 4 (.malloc 100) 0, .store exB 8, .call 0 (.free exB) 0, .call 4 (.malloc 100) 0, .call 1 .trim 0]
    (fun h s => decide (live h exA = some ⟨100, none⟩) && decide (usableB (exRo false false) s.σ exA = some 104) && decide (s.byte exA = 7#8))
    (by decide +kernel)
  simp only [Bool.and_eq_true, decide_eq_true_eq] at h2
  exact ⟨h, s, h1, h2.1.1, usableB_usable h2.1.2, h2.2⟩

end HM
