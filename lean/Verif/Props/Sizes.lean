import Verif.Props.Free
/-
C12, C26, C27. Sized deallocation and the functions that report sizes.
-/
namespace HM

variable {g : Cfg} {ro : Ro} {ar : Nat → Nat} {calm : Bool} {D : Client} {h : List Ev} {s : Sys} {t : Nat} {chs : Nat → Choice}

/-! ### C12 -/

/-- The usable size of a block that is obtained by `malloc(m)` (see `c12_malloc_usable`). -/
def Cfg.mallocUsable (g : Cfg) (m : Nat) : Nat :=
  if adjustSizeForCanary g m ≤ g.maxSlab then g.offers (g.clsOf (adjustSizeForCanary g m)) else getLargeSizeClass g (adjustSizeForCanary g m)

theorem SizeKind.mallocUsable {w : World} {p m u : Nat} (hro : RoOk ro) (hi : GInv ro w) (h : SizeKind ro w p (adjustSizeForCanary ro.g m))
    (hu : UsableIs ro w p u) : u = ro.g.mallocUsable m := by
  unfold Cfg.mallocUsable
  rcases h with ⟨h1, a, i, k, h2⟩ | ⟨h1, gd, h2⟩
  · rw [if_pos h1, offers_eq]
    exact hu.uniq hro hi (Or.inl ⟨a, _, i, k, h2, rfl⟩)
  · rw [if_neg (by omega)]
    exact hu.uniq hro hi (Or.inr ⟨gd, h2⟩)

/-- C12. A live block that comes from `malloc(n)`, or `calloc` or `realloc` with `n` bytes, has the usable size
`mallocUsable n`. -/
theorem c12_malloc_usable (hg : Good g ar) (r : Reach g ro ar calm D h s) {p n u : Nat} (hl : live h p = some ⟨n, none⟩) (hu : Usable ro s.σ p u) :
    u = g.mallocUsable n := by
  obtain ⟨hro, rfl⟩ := r.roOk hg
  obtain ⟨w, f, _⟩ := r.fits hg
  rw [← f.σ] at hu
  exact SizeKind.mallocUsable hro f.linked.inv (f.linked.sized p _ hl).2 (hu.is hro f.linked (by rw [hl]; rfl))

theorem table_le (g : Cfg) {x : Nat} (h : x ∈ sizeClasses g) : x ≤ g.maxSlab := by
  revert x
  unfold sizeClasses Cfg.maxSlab
  cases g.extended <;> decide

theorem getLargeSizeClass_small (g : Cfg) {m : Nat} (h : m ≤ g.maxSlab) : getLargeSizeClass g m ≤ g.maxSlab := by
  unfold getLargeSizeClass
  cases g.largeClasses with
  | true =>
    have h1 : max m PAGE ≤ g.maxSlab := by rcases maxSlab_cases g with ⟨_, e⟩ | ⟨_, e⟩ <;> omega
    exact table_le g (List.mem_of_getElem? (getSizeInfo_table g h1).1)
  | false =>
    simp only [Bool.false_eq_true, if_false]
    rw [pageAlign_eq]
    rcases maxSlab_cases g with ⟨_, e⟩ | ⟨_, e⟩ <;> omega

theorem getSizeInfo_big (g : Cfg) {m : Nat} (h : g.maxSlab < m) (hm : m ≤ 2 ^ 63 + 16) : g.maxSlab < (getSizeInfo m).size := by
  have e61 : (2 : Nat) ^ 61 = 2305843009213693952 := by decide
  have e63 : (2 : Nat) ^ 63 = 9223372036854775808 := by decide
  have h16 : 16384 ≤ g.maxSlab := by rcases maxSlab_cases g with ⟨_, e⟩ | ⟨_, e⟩ <;> omega
  have := c15_large_rounding { g with largeClasses := true } m (by omega) (by omega)
  unfold getLargeSizeClass at this
  simp only [if_true] at this
  rw [Nat.max_eq_left (by omega)] at this
  have h2 := this.2 (fun e => by have := this.1.mp e; omega)
  omega

theorem offers_inj {g : Cfg} {c c' : Nat} (hc : c < nClasses g) (hc' : c' < nClasses g) (h : g.offers c = g.offers c') : c = c' := by
  refine classSize_inj hc hc' ?_
  have h1 := (classGeo g hc).size_ge
  have h2 := (classGeo g hc').size_ge
  have h3 := canarySize_le g
  unfold Cfg.slotSize at h1 h2
  unfold Cfg.offers at h
  by_cases k : g.classSize c = 0 <;> by_cases k' : g.classSize c' = 0
  · omega
  · rw [if_pos k, if_neg k'] at h; rw [if_neg k'] at h2; omega
  · rw [if_neg k, if_pos k'] at h; rw [if_neg k] at h1; omega
  · rw [if_neg k, if_neg k'] at h; rw [if_neg k] at h1; rw [if_neg k'] at h2; omega

theorem offers_le (g : Cfg) {c : Nat} (hc : c < nClasses g) : g.offers c ≤ g.maxSlab := by
  have : g.classSize c ≤ g.maxSlab := by
    refine table_le g ?_
    have hc : c < (sizeClasses g).length := by rw [sizeClasses_length]; exact hc
    unfold Cfg.classSize
    rw [List.getD_eq_getElem?_getD, List.getElem?_eq_getElem hc]
    exact List.getElem_mem hc
  unfold Cfg.offers; split <;> omega

/-- C12. In a program without memory errors, `free_sized(p, m)` on a live block obtained by `malloc(n)` (or `calloc` or
`realloc`) returns if `m` and `n` are rounded to the same size, and aborts otherwise. Missing: blocks from the
aligned functions (`c12_aligned_sized_abort` shows that the claim is false for them) and claimed sizes above 2^63
(`c12_huge_size_accepted`). -/
theorem c12_sized_free_partial (hg : Good g ar) (r : Reach g ro ar calm (goodClient ro) h s) (he : ∀ n, Env calm (chs n)) (hsys : OnlyEnomem chs)
    {p n m : Nat} (hp : p < W64) (hm : m ≤ 2 ^ 63) (hl : live h p = some ⟨n, none⟩) :
    (g.mallocUsable m = g.mallocUsable n ∧ ∃ s', s.call ro ar t (.freeSized p m) chs = .ok (s', .unit)) ∨
    (g.mallocUsable m ≠ g.mallocUsable n ∧ ∃ why, s.call ro ar t (.freeSized p m) chs = .fatal why) := by
  obtain ⟨hro, rfl⟩ := r.roOk hg
  have e63 : (2 : Nat) ^ 63 = 9223372036854775808 := by decide
  obtain ⟨w, f, _, hcon, h1⟩ := r.spec (c := .freeSized p m) hg t ⟨hp, by omega⟩ he
  have hcon : Content ro (w.lend t) := hcon fun _ _ _ h => h
  have l := f.linked
  have hk := (l.sized p _ hl).2
  have hn := (l.sized p _ hl).1
  simp only at hk hn
  have hadj : adjustSizeForCanary ro.g m ≤ 2 ^ 63 + 16 := by
    have := canarySize_le ro.g
    unfold adjustSizeForCanary; split <;> omega
  -- what `mallocUsable m = mallocUsable n` means for the two kinds of blocks
  have hsmall : ∀ a c i k, IsSmall ro w.σ p a c i k →
      ((getSizeInfo (adjustSizeForCanary ro.g m)).size = ro.g.classSize c ↔ ro.g.mallocUsable m = ro.g.mallocUsable n) := by
    intro a c i k h2
    rcases hk with ⟨h3, a', i', k', h4⟩ | ⟨h3, gd, h4⟩
    · obtain ⟨_, rfl, _⟩ := h2.uniq hro l.inv h4
      unfold Cfg.mallocUsable
      rw [if_pos h3]
      by_cases k1 : adjustSizeForCanary ro.g m ≤ ro.g.maxSlab
      · rw [if_pos k1, ← classSize_clsOf k1]
        exact ⟨fun e => by rw [classSize_inj (clsOf_lt k1) (clsOf_lt h3) e], fun e => by rw [offers_inj (clsOf_lt k1) (clsOf_lt h3) e]⟩
      · rw [if_neg k1]
        have h5 := getSizeInfo_big ro.g (by omega) hadj
        have h6 := offers_le ro.g (clsOf_lt h3)
        have h7 : ro.g.classSize (ro.g.clsOf (adjustSizeForCanary ro.g n)) ≤ ro.g.maxSlab := by
          rw [classSize_clsOf h3]; exact table_le _ (List.mem_of_getElem? (getSizeInfo_table ro.g h3).1)
        refine iff_of_false (by omega) fun e => ?_
        have h16 : 16384 ≤ ro.g.maxSlab := by rcases maxSlab_cases ro.g with ⟨_, e⟩ | ⟨_, e⟩ <;> omega
        have e61 : (2 : Nat) ^ 61 = 2305843009213693952 := by decide
        have h8 := c15_large_rounding ro.g (adjustSizeForCanary ro.g m) (by omega) (by omega)
        have h9 := h8.2 fun e => by have := h8.1.mp e; split at this <;> omega
        omega
    · exact (not_small_has hro l.inv h2 h4).elim
  have hlarge : ∀ sz gd, w.σ.rt.Has ⟨p, sz, gd⟩ →
      (sz = getLargeSizeClass ro.g (adjustSizeForCanary ro.g m) ↔ ro.g.mallocUsable m = ro.g.mallocUsable n) := by
    intro sz gd h2
    rcases hk with ⟨h3, a', i', k', h4⟩ | ⟨h3, gd', h4⟩
    · exact (not_small_has hro l.inv h4 h2).elim
    · have e := l.inv.has_unique h2 h4 rfl
      injection e with _ e
      have h5 := (l.inv.reg _ h2).size
      simp only at h5
      rw [e] at h5
      have h6 := (getLargeSizeClass_ok ro.g (adjust_lt hn) h5.ne').1
      unfold Cfg.mallocUsable
      rw [if_neg (show ¬ adjustSizeForCanary ro.g n ≤ ro.g.maxSlab by omega)]
      by_cases k1 : adjustSizeForCanary ro.g m ≤ ro.g.maxSlab
      · rw [if_pos k1]
        have h7 := getLargeSizeClass_small ro.g k1
        have h8 := offers_le ro.g (clsOf_lt k1)
        exact iff_of_false (by omega) (by omega)
      · rw [if_neg k1, e]; exact eq_comm
  cases hc : s.call ro ar t (.freeSized p m) chs with
  | ok x =>
    obtain ⟨s', x⟩ := x
    rw [hc] at h1
    obtain ⟨w', _, _, ⟨rfl, h2⟩, _⟩ := h1
    refine Or.inl ⟨?_, s', rfl⟩
    rcases h2 with ⟨h2, _⟩ | ⟨_, ⟨_, h2⟩ | ⟨_, h2⟩⟩
    · subst h2
      obtain ⟨u, h3, _⟩ := l.usable hl
      exact absurd rfl (h3.pos hro l)
    · obtain ⟨a, c, i, k, h3, _, h4, _⟩ := h2.small
      exact (hsmall a c i k h3).mp (h4 _ rfl)
    · obtain ⟨sz, gd, h3, h4, _⟩ := h2.has
      exact (hlarge sz gd h3).mp (h4 _ rfl)
  | fatal why =>
    rw [hc] at h1
    refine Or.inr ⟨fun e => ?_, why, rfl⟩
    obtain ⟨k, w1, h2, h3 | ⟨h3, _⟩ | ⟨h0, h3 | h3⟩ | ⟨a, c, i, k, h3, h4⟩ | ⟨sz, gd, h3, h4⟩⟩ := h1
    · exact absurd h3 (hsys.no k)
    · exact h3
    · rw [lend_nobody l, hl] at h3; cases h3
    · exact hcon.canary_ok (l.lend t).inv h3
    · exact h4 ((hsmall a c i k h3).mpr e)
    · exact h4 ((hlarge sz gd h3).mpr e)
  | segv => rw [hc] at h1; obtain ⟨n, w1, _, ⟨p, e, _⟩ | ⟨p, n, e, _⟩⟩ := h1 <;> cases e
  | ub m => rw [hc] at h1; obtain ⟨n, w1, _, ⟨p, e, _⟩ | ⟨p, n, _, _, e, _⟩⟩ := h1 <;> cases e
  | hang => rw [hc] at h1; obtain ⟨n, w1, _, ⟨p, e, _⟩⟩ := h1; cases e

/-- C12. The size originally requested is accepted. Missing: blocks from the aligned functions
(`c12_aligned_sized_abort`). -/
theorem c12_original_size_partial (hg : Good g ar) (r : Reach g ro ar calm (goodClient ro) h s) (he : ∀ n, Env calm (chs n)) (hsys : OnlyEnomem chs)
    {p n : Nat} (hp : p < W64) (hl : live h p = some ⟨n, none⟩) : ∃ s', s.call ro ar t (.freeSized p n) chs = .ok (s', .unit) := by
  obtain ⟨hro, rfl⟩ := r.roOk hg
  obtain ⟨w, f, _⟩ := r.fits hg
  have hok : (Call.freeSized p n).Ok := ⟨hp, (f.linked.sized p _ hl).1⟩
  obtain ⟨s', x, hc⟩ := c05_no_abort (t := t) hg r hok he hsys (Or.inr hl)
  obtain ⟨w, w', C, _⟩ := r.called hg hok he hc
  rw [hc, C.res.1]
  exact ⟨s', rfl⟩

/-- C12. For blocks from the aligned functions the claim is false of the code: the C++ program
`::operator delete(::operator new(128, std::align_val_t(64)), 128, std::align_val_t(64))`, which uses
`aligned_alloc(64, 128)` and `free_sized(p, 128)`, aborts, because the alignment is taken into account when the size class is
chosen but not when it is checked. -/
theorem c12_aligned_sized_abort : ∃ h s, Reach (exCfg false false) (exRo false false) (fun t => t % 4) false (goodClient (exRo false false)) h s ∧
    ∃ p chs, live h p = some ⟨128, some 64⟩ ∧ (∀ n, Env false (chs n)) ∧ OnlyEnomem chs ∧
      ∃ why, s.call (exRo false false) (fun t => t % 4) 0 (.freeSized p 128) chs = .fatal why := by
  obtain ⟨h, s, h1, h2⟩ := ex_good (stats := false) (sealed := false) (calm := false)
    [.call 0 (.alignedAlloc 64 128) 0]
    (fun h s => (blocks h).any fun p => decide (live h p = some ⟨128, some 64⟩) && (s.call (exRo false false) (fun t => t % 4) 0 (.freeSized p 128) fun _ => Choice.quiet).isFatal)
    (by decide +kernel)
  simp only [List.any_eq_true, Bool.and_eq_true, decide_eq_true_eq] at h2
  obtain ⟨p, _, h3, h4⟩ := h2
  refine ⟨h, s, h1, p, fun _ => Choice.quiet, h3, fun n => Env.quiet _, fun n => ⟨fun _ => by simp [Choice.quiet], by simp [Choice.quiet], by simp [Choice.quiet]⟩, ?_⟩
  revert h4
  cases s.call (exRo false false) (fun t => t % 4) 0 (.freeSized p 128) fun _ => Choice.quiet with
  | fatal m => exact fun _ => ⟨m, rfl⟩
  | _ => intro h4; cases h4

/-- C12. A claimed size so large that rounding it overflows passes for the size 0: `free_sized(malloc(0), SIZE_MAX)`
returns. -/
theorem c12_huge_size_accepted : ∃ h s, Reach (exCfg false false) (exRo false false) (fun t => t % 4) false (goodClient (exRo false false)) h s ∧
    ∃ p chs, live h p = some ⟨0, none⟩ ∧ (∀ n, Env false (chs n)) ∧
      ∃ x, s.call (exRo false false) (fun t => t % 4) 0 (.freeSized p (2 ^ 64 - 1)) chs = .ok x := by
  obtain ⟨h, s, h1, h2⟩ := ex_good (stats := false) (sealed := false) (calm := false)
    [.call 0 (.malloc 0) 0]
    (fun h s => (blocks h).any fun p => decide (live h p = some ⟨0, none⟩) && (s.call (exRo false false) (fun t => t % 4) 0 (.freeSized p (2 ^ 64 - 1)) fun _ => Choice.quiet).isOk)
    (by decide +kernel)
  simp only [List.any_eq_true, Bool.and_eq_true, decide_eq_true_eq] at h2
  obtain ⟨p, _, h3, h4⟩ := h2
  refine ⟨h, s, h1, p, fun _ => Choice.quiet, h3, fun n => Env.quiet _, ?_⟩
  revert h4
  cases s.call (exRo false false) (fun t => t % 4) 0 (.freeSized p (2 ^ 64 - 1)) fun _ => Choice.quiet with
  | ok x => exact fun _ => ⟨x, rfl⟩
  | _ => intro h4; cases h4

/-- Sizes that are rounded alike, and sizes that are not; a small and a large live block. -/
example : (exCfg false false).mallocUsable 97 = (exCfg false false).mallocUsable 104 ∧ (exCfg false false).mallocUsable 104 ≠ (exCfg false false).mallocUsable 105 ∧
    (exCfg false false).mallocUsable 200000 = (exCfg false false).mallocUsable 229376 ∧ (exCfg false false).mallocUsable 97 ≠ (exCfg false false).mallocUsable 200000 ∧
    ∃ h s, Reach (exCfg false false) (exRo false false) (fun t => t % 4) false (goodClient (exRo false false)) h s ∧
      live h exA = some ⟨100, none⟩ ∧ live h exBig = some ⟨200000, none⟩ := by
  refine ⟨by decide, by decide, by decide, by decide, ?_⟩
  obtain ⟨h, s, h1, h2⟩ := ex_good (stats := false) (sealed := false) (calm := false)
    [.call 0 (.malloc 100) 0, .call 0 (.malloc 200000) exMapAt] (fun h s => decide (live h exA = some ⟨100, none⟩) && decide (live h exBig = some ⟨200000, none⟩)) (by decide +kernel)
  simp only [Bool.and_eq_true, decide_eq_true_eq] at h2
  exact ⟨h, s, h1, h2.1, h2.2⟩

/-! ### C26 -/

/-- C26. `malloc_usable_size` aborts for pointers that are not NULL and not live. -/
theorem c26_rejects (hg : Good g ar) (r : Reach g ro ar calm D h s) (he : ∀ n, Env calm (chs n)) {p : Nat} (hp : p < W64) (h0 : p ≠ 0)
    (hl : live h p = none) : ∃ m, s.call ro ar t (.usableSize p) chs = .fatal m := by
  obtain ⟨w, f, _, _, h1⟩ := r.spec (c := .usableSize p) hg t hp he
  cases hc : s.call ro ar t (.usableSize p) chs with
  | fatal m => exact ⟨m, rfl⟩
  | ok x =>
    obtain ⟨s', x⟩ := x
    rw [hc] at h1
    obtain ⟨w', _, _, ⟨u, _, _, _, ⟨h2, _⟩ | ⟨_, h2, _⟩⟩, _⟩ := h1
    · exact absurd h2 h0
    · exact absurd h2 (not_mine f.linked hl)
  | segv => rw [hc] at h1; obtain ⟨n, w1, _, ⟨p, e, _⟩ | ⟨p, n, e, _⟩⟩ := h1 <;> cases e
  | ub m => rw [hc] at h1; obtain ⟨n, w1, _, ⟨p, e, _⟩ | ⟨p, n, _, _, e, _⟩⟩ := h1 <;> cases e
  | hang => rw [hc] at h1; obtain ⟨n, w1, _, ⟨p, e, _⟩⟩ := h1; cases e

/-- Nothing has changed but thread `t`'s private state. -/
def Same1 (s s' : Sys) (t : Nat) : Prop := s'.σ = s.σ ∧ (s'.tl t).errno = (s.tl t).errno ∧ ∀ u, u ≠ t → s'.tl u = s.tl u

/-- C26. `malloc_usable_size(NULL)` is 0. -/
theorem c26_null (s : Sys) (t : Nat) (chs : Nat → Choice) :
    ∃ s', s.call ro ar t (.usableSize 0) chs = .ok (s', .num 0) ∧ Same1 s s' t := by
  refine ⟨_, rfl, rfl, ?_, fun u hu => if_neg hu⟩
  show (if t = t then s.tl t else _ : Tl).errno = _
  rw [if_pos rfl]

/-- C26. If `malloc_usable_size(p)` returns for a pointer other than NULL, then `p` is live and the result is its full usable
size: not less than what was requested, and for a small block what its size class offers; the memory of a large block ends
with the page that contains the last usable byte. Nothing is changed. -/
theorem c26_value (hg : Good g ar) (r : Reach g ro ar calm D h s) (he : ∀ n, Env calm (chs n)) {p u : Nat} {s' : Sys} (hp : p < W64) (h0 : p ≠ 0)
    (hc : s.call ro ar t (.usableSize p) chs = .ok (s', .num u)) :
    Same1 s s' t ∧ (∃ i, live h p = some i ∧ i.size ≤ u) ∧ (∀ x, p ≤ x → x < p + u → s.access x) ∧
    ((∃ a c, a < g.nArena ∧ c < nClasses g ∧ ro.area a c p ∧ u = g.offers c) ∨
      ((∀ a c, a < g.nArena → c < nClasses g → ¬ ro.area a c p) ∧ ∀ x, p + (u + 4095) / 4096 * 4096 ≤ x → x < p + (u + 4095) / 4096 * 4096 + 4096 → s.guarded x)) := by
  obtain ⟨hro, rfl⟩ := r.roOk hg
  obtain ⟨w, w', C, _⟩ := r.called (c := .usableSize p) hg hp he hc
  obtain ⟨v, e, h1, h2, ⟨h3, _⟩ | ⟨_, hm, hu, _⟩⟩ := C.res
  · exact absurd h3 h0
  cases e
  have l := C.pre.linked
  have hu : UsableIs ro w p u := hu
  have hs : s'.σ = s.σ := by rw [← C.post.σ, ← C.pre.σ, h2]; rfl
  obtain ⟨i, hi⟩ := Option.isSome_iff_exists.mp (hu.live hro l)
  obtain ⟨v, k1, k2⟩ := l.usable hi
  obtain rfl := hu.uniq hro l.inv k1
  refine ⟨⟨hs, h1, C.others⟩, ⟨i, hi, k2⟩, fun x q1 q2 => ?_, ?_⟩
  · show s.σ.vm.prot _ = _
    rw [← C.pre.σ]; exact hu.rw hro l q1 q2
  · rcases hu with ⟨a, c, j, k, h4, e⟩ | ⟨gd, h4⟩
    · left
      obtain ⟨q1, q2, _⟩ := h4.lt l.inv
      have h5 := (classGeo ro.g h4.2.1).size_ge
      refine ⟨a, c, h4.1, h4.2.1, ?_, by rw [offers_eq]; exact e⟩
      rw [h4.2.2.1]
      exact slot_in_region hro h4.1 h4.2.1 q1 q2 (by unfold inRange; omega)
    · right
      have hn : ∀ a c, a < ro.g.nArena → c < nClasses ro.g → ¬ ro.area a c p := fun a c ha hc hx => by
        have := hro.cell_slab ha hc (hro.region_cell ha hc hx)
        rw [has_not_inSlab hro l.inv h4] at this; cases this
      refine ⟨hn, ?_⟩
      obtain ⟨e, _, _, _, _, h5, _, h6, _⟩ := c19_guards hg r hi hn
      have hb : ¬ CanaryBad ro w p := Has.notBad hro l.inv h4
      have := h5 u (by rw [← C.pre.σ]; exact usable_complete hro l (by rw [hi]; rfl) (Or.inr ⟨gd, h4⟩) hb)
      rw [← this]; exact h6

/-- C26. In a program without memory errors it returns for every live pointer. -/
theorem c26_accepts (hg : Good g ar) (r : Reach g ro ar calm (goodClient ro) h s) (he : ∀ n, Env calm (chs n)) (hsys : OnlyEnomem chs) {p : Nat} (hp : p < W64)
    (hl : (live h p).isSome) : ∃ s' u, s.call ro ar t (.usableSize p) chs = .ok (s', .num u) := by
  obtain ⟨s', x, hc⟩ := c05_no_abort (t := t) (c := .usableSize p) hg r hp he hsys (Or.inr hl)
  obtain ⟨w, w', C, _⟩ := r.called (c := .usableSize p) hg hp he hc
  obtain ⟨u, rfl, _⟩ := C.res
  exact ⟨s', u, hc⟩

/-- The result for a small block, and for a large one. -/
example : ∃ h s, Reach (exCfg false true) (exRo false true) (fun t => t % 4) false (goodClient (exRo false true)) h s ∧
    (∃ chs s', (∀ n, Env false (chs n)) ∧ s.call (exRo false true) (fun t => t % 4) 5 (.usableSize exA) chs = .ok (s', .num 104)) ∧
    (∃ chs s', (∀ n, Env false (chs n)) ∧ s.call (exRo false true) (fun t => t % 4) 5 (.usableSize exBig) chs = .ok (s', .num 229376)) ∧ live h exB = none := by
  obtain ⟨h, s, h1, h2⟩ := ex_good (stats := false) (sealed := true) (calm := false)
    [.call 0 (.malloc 100) 0, .call 0 (.malloc 200000) exMapAt]
    (fun h s => (s.call (exRo false true) (fun t => t % 4) 5 (.usableSize exA) fun _ => Choice.quiet).val.any (fun x => match x.2 with | .num n => decide (n = 104) | _ => false) &&
      ((s.call (exRo false true) (fun t => t % 4) 5 (.usableSize exBig) fun _ => Choice.quiet).val.any (fun x => match x.2 with | .num n => decide (n = 229376) | _ => false) && decide (live h exB = none)))
    (by decide +kernel)
  simp only [Bool.and_eq_true, decide_eq_true_eq] at h2
  have key : ∀ p n, (s.call (exRo false true) (fun t => t % 4) 5 (.usableSize p) fun _ => Choice.quiet).val.any (fun x => match x.2 with | .num m => decide (m = n) | _ => false) = true →
      ∃ chs s', (∀ n, Env false (chs n)) ∧ s.call (exRo false true) (fun t => t % 4) 5 (.usableSize p) chs = .ok (s', .num n) := by
    intro p n hh
    refine ⟨fun _ => Choice.quiet, ?_⟩
    revert hh
    cases s.call (exRo false true) (fun t => t % 4) 5 (.usableSize p) fun _ => Choice.quiet with
    | ok x =>
      obtain ⟨s', y⟩ := x
      cases y with
      | num m => exact fun hh => ⟨s', fun _ => Env.quiet _, by rw [of_decide_eq_true (p := m = n) hh]⟩
      | _ => intro hh; cases hh
    | _ => intro hh; cases hh
  exact ⟨h, s, h1, key _ _ h2.1, key _ _ h2.2.1, h2.2.2⟩

/-! ### C27 -/

/-- `malloc_object_size` returns if its argument is outside of the slab region, or inside the slot of a live block that is
not a zero byte block. -/
theorem objectSize_ok (hg : Good g ar) (r : Reach g ro ar calm D h s) (he : ∀ n, Env calm (chs n)) {p : Nat} (hp : p < W64)
    (hobj : ∀ w, Fits ro calm h s w → ro.inSlab p = false ∨ ((ro.sizeClassOf p).2 ≠ 0 ∧ ∃ q a c i k, IsSmall ro w.σ q a c i k ∧ inRange q (ro.g.slotSize c) p)) :
    ∃ s' n, s.call ro ar t (.objectSize p) chs = .ok (s', .num n) := by
  obtain ⟨hro, rfl⟩ := r.roOk hg
  obtain ⟨w, ⟨f, htags⟩, _, _, h3, _⟩ := r.spec' (c := .objectSize p) hg t hp he
  have l := f.linked
  have hobj := hobj w f
  have hz : ¬ (ro.inSlab p = true ∧ (ro.sizeClassOf p).2 = 0) := by
    rintro ⟨k1, k2⟩
    rcases hobj with k3 | ⟨k3, _⟩
    · rw [k1] at k3; cases k3
    · exact k3 k2
  cases hc : s.call ro ar t (.objectSize p) chs with
  | segv => rw [hc] at h3; obtain ⟨n, w1, _, ⟨p, e, h4⟩ | ⟨p, n, e, _⟩⟩ := h3 <;> cases e; exact absurd h4 hz
  | ub m => rw [hc] at h3; obtain ⟨n, w1, _, ⟨p, e, h4⟩ | ⟨p, n, _, _, e, _⟩⟩ := h3 <;> cases e; exact absurd h4 hz
  | hang => rw [hc] at h3; obtain ⟨n, w1, _, ⟨p, e, h4⟩⟩ := h3; cases e; exact absurd h4 hz
  | fatal m =>
    exfalso
    rw [hc] at h3
    obtain ⟨n, w1, _, h4 | ⟨h4, _⟩ | ⟨_, h4, h5⟩⟩ := h3
    · -- the function makes no system call that could fail
      revert hc
      have : ∀ m, (hObjectSize ro p).run chs s.σ (s.tl t) ≠ .fatal m := by
        intro m hm
        have hw := (hObjectSize_wp (t := t) (F := fun b _ _ => b ≠ .fatal m ∨ False) (p := p) (tl := s.tl t) hro (l.ready t).inv
          (fun msg ch k1 k2 => ?_) (fun k1 k2 => absurd ⟨k1, k2⟩ hz)).run (l.ready t).inv (chs := chs) (fun n => (by have := he n; rw [← f.calm] at this; exact this.fair fun b e => nomatch htags.symm.trans e))
        · rw [show (w.lend t).σ = s.σ from f.σ, hm] at hw
          obtain ⟨n, w1, _, hw | hw⟩ := hw
          · exact hw rfl
          · exact hw
        · exfalso
          rcases hobj with k3 | ⟨_, q, a, c, i, k, k4, k5⟩
          · rw [k1] at k3; cases k3
          · exact k2 _ _ _ _ _ k4 k5
      intro hc
      have hr := this m
      unfold Sys.call Call.prog at hc
      simp only at hc
      have hb : ∀ (P : Prog Nat) chs σ tl, (P >>= fun r => pure (Ret.num r)).run chs σ tl = .fatal m → P.run chs σ tl = .fatal m := by
        intro P
        induction P with
        | ret a => intro chs σ tl e; cases e
        | act f k ih =>
          intro chs σ tl e
          show Prog.run (.act f k) chs σ tl = _
          have e : Prog.run (.act f fun b => k b >>= fun r => pure (Ret.num r)) chs σ tl = .fatal m := e
          rw [Prog.run] at e ⊢
          revert e
          cases f (chs 0) σ tl with
          | ok x => exact ih _ _ _ _
          | fatal m' => intro e; injection e with e; rw [e]
          | _ => intro e; cases e
      revert hc
      cases hx : (hObjectSize ro p >>= fun r => pure (Ret.num r)).run chs s.σ (s.tl t) with
      | fatal m' => intro e; cases e; exact hr (hb _ _ _ _ hx)
      | ok x => intro e; cases e
      | segv => intro e; cases e
      | ub x => intro e; cases e
      | hang => intro e; cases e
    · exact h4
    · rcases hobj with k3 | ⟨k3, q, a, c, i, k, k4, k5⟩
      · rw [h4] at k3; cases k3
      · rcases h5 with h5 | h5
        · exact h5 _ _ _ _ _ k4 k5
        · exact k3 h5
  | ok x =>
    obtain ⟨s', x⟩ := x
    obtain ⟨w2, w', C, _⟩ := r.called (c := .objectSize p) hg hp he hc
    obtain ⟨n, rfl, _⟩ := C.res
    exact ⟨s', n, rfl⟩

/-- C27. For a pointer `p` into the usable bytes of a live block `q`, `malloc_object_size(p)` returns without changing
anything; the result is not less than the number of usable bytes from `p` on, and is equal to it if the block is small or
`p` is its beginning. -/
theorem c27_upper_bound (hg : Good g ar) (r : Reach g ro ar calm D h s) (he : ∀ n, Env calm (chs n)) {p q u : Nat} (hp : p < W64)
    (hl : (live h q).isSome) (hu : Usable ro s.σ q u) (h1 : q ≤ p) (h2 : p < q + u) :
    ∃ s' n, s.call ro ar t (.objectSize p) chs = .ok (s', .num n) ∧ Same1 s s' t ∧ q + u - p ≤ n ∧
      (p = q ∨ (∃ a c, a < g.nArena ∧ c < nClasses g ∧ ro.area a c p) → n = q + u - p) := by
  obtain ⟨hro, rfl⟩ := r.roOk hg
  obtain ⟨w, f, _⟩ := r.fits hg
  have l := f.linked
  rw [← f.σ] at hu
  have hi := hu.is hro l hl
  have hobj := good_object hro l hi h1 h2
  have h0 : p ≠ 0 := fun e => hi.pos hro l (by omega)
  have hz : ¬ (ro.inSlab p = true ∧ (ro.sizeClassOf p).2 = 0) := by
    rintro ⟨k1, k2⟩
    rcases hobj with k3 | ⟨k3, _⟩
    · rw [k1] at k3; cases k3
    · exact k3 k2
  obtain ⟨s', n, hc⟩ := objectSize_ok (t := t) hg r he hp fun w' f' => by
    have l' := f'.linked
    rw [f.σ, ← f'.σ] at hu
    rcases good_object hro l' (hu.is hro l' hl) h1 h2 with k | ⟨k, a, c, i, j, k1, k2⟩
    · exact Or.inl k
    · exact Or.inr ⟨k, _, a, c, i, j, k1, k2⟩
  obtain ⟨w2, w', C, _⟩ := r.called (c := .objectSize p) hg hp he hc
  obtain ⟨_, e, h4, h5, h6⟩ := C.res
  cases e
  have hs : s'.σ = s.σ := by rw [← C.post.σ, ← C.pre.σ, h5]; rfl
  have l := C.pre.linked
  rw [f.σ, ← C.pre.σ] at hu
  have hi := hu.is hro l hl
  refine ⟨s', n, hc, ⟨hs, h4, C.others⟩, ?_⟩
  rcases h6 with ⟨k1, k2, _⟩ | ⟨k1, _⟩ | ⟨_, q', a, c, i, k, k1, k2, k3, k4⟩ | ⟨_, k1, k2⟩
  · exact absurd ⟨k1, k2⟩ hz
  · exact absurd k1 h0
  · have k1 : IsSmall ro w2.σ q' a c i k := k1
    rcases hi.extent hro l h1 (by omega) with ⟨a', c', i', k', j1, j2⟩ | j1
    · obtain ⟨rfl, rfl, rfl, rfl, rfl⟩ := j1.disjoint hro l.inv k1 j2 k3
      have e := hi.uniq hro l.inv (Or.inl ⟨_, _, _, _, k1, rfl⟩)
      rw [if_neg k2] at e
      have hb := (classGeo ro.g k1.2.1).size_le
      have hlt : u < W64 := by
        rw [e]; show ro.g.slotSize _ - _ < _
        omega
      have : n = q + u - p := by rw [k4, ← e, sub64_of_le hlt (by omega)]; omega
      exact ⟨by omega, fun _ => this⟩
    · rw [k1.own hro l.inv k3] at j1; cases j1
  · rcases hi with ⟨a', c', i', k', j1, _⟩ | ⟨gd, j1⟩
    · exfalso
      obtain ⟨q1, q2, _⟩ := j1.lt l.inv
      have hx := (UsableIs.extent hro l (Or.inl ⟨a', c', i', k', j1, rfl⟩) h1 (by omega))
      rcases hx with ⟨a2, c2, i2, k2, j2, j3⟩ | j2
      · rw [j2.2.2.1] at j3
        obtain ⟨q1, q2, _⟩ := j2.lt l.inv
        rw [hro.cell_slab j2.1 j2.2.1 (hro.region_cell j2.1 j2.2.1 (slot_in_region hro j2.1 j2.2.1 q1 q2 j3))] at k1
        cases k1
      · have := (l.inv.regOwn _ q).mp j2
        obtain ⟨rr, j3, rfl, _⟩ := this
        exact not_small_has hro l.inv j1 j3
    · have hlt : q + u < W64 := by
        have := (l.inv.reg _ j1).hi
        simp only at this
        have := pageUp_le_iff (n := u)
        omega
      rcases k2 with ⟨gd', k2⟩ | ⟨rfl, k2⟩
      · by_cases e : p = q
        · subst e
          have := l.inv.has_unique (k2 : w2.σ.rt.Has _) j1 rfl
          injection this with _ e
          exact ⟨by omega, fun _ => by omega⟩
        · have k2 : w2.σ.rt.Has ⟨p, n, gd'⟩ := k2
          have hn := (l.inv.reg _ k2).size
          simp only at hn
          exact absurd (UsableIs.disjoint hro l (Or.inr ⟨_, k2⟩) (Or.inr ⟨_, j1⟩) (Nat.le_refl p) (by omega) h1 (by omega)) e
      · refine ⟨by omega, fun hh => ?_⟩
        rcases hh with rfl | ⟨a, c, ha, hc, hx⟩
        · exact absurd j1 (k2 _ _)
        · rw [hro.cell_slab ha hc (hro.region_cell ha hc hx)] at k1; cases k1

/-- C27. For a pointer outside of the slab region that is not the beginning of a live block the result is `SIZE_MAX`; for NULL
it is 0. Missing: unknown pointers into the slab region, for which the call aborts (`c46_object_size_partial`) or has
undefined behaviour (`c27_zero_class_ub`). -/
theorem c27_unknown_partial (hg : Good g ar) (r : Reach g ro ar calm D h s) (he : ∀ n, Env calm (chs n)) {p : Nat} (hp : p < W64)
    (ho : p < ro.slabStart ∨ ro.slabEnd ≤ p) (hl : live h p = none) :
    ∃ s', s.call ro ar t (.objectSize p) chs = .ok (s', .num (if p = 0 then 0 else 2 ^ 64 - 1)) ∧ Same1 s s' t := by
  obtain ⟨hro, rfl⟩ := r.roOk hg
  have hs : ro.inSlab p = false := by
    cases hh : ro.inSlab p with
    | false => rfl
    | true => unfold Ro.inSlab at hh; simp only [Bool.and_eq_true, decide_eq_true_eq] at hh; omega
  obtain ⟨s', n, hc⟩ := objectSize_ok (t := t) hg r he hp fun w' f' => Or.inl hs
  obtain ⟨w2, w', C, _⟩ := r.called (c := .objectSize p) hg hp he hc
  obtain ⟨_, e, h4, h5, h6⟩ := C.res
  cases e
  refine ⟨s', ?_, by rw [← C.post.σ, ← C.pre.σ, h5]; rfl, h4, C.others⟩
  have l := C.pre.linked
  suffices n = if p = 0 then 0 else 2 ^ 64 - 1 by rw [← this]; exact hc
  rcases h6 with ⟨k1, _⟩ | ⟨k1, k2⟩ | ⟨k0, q, a, c, i, k, k1, _, k3, _⟩ | ⟨k0, _, ⟨gd, k1⟩ | ⟨k1, _⟩⟩
  · rw [hs] at k1; cases k1
  · rw [if_pos k1, k2]
  · have k1 : IsSmall ro w2.σ q a c i k := k1
    rw [k1.2.2.1] at k3
    obtain ⟨q1, q2, _⟩ := k1.lt l.inv
    rw [hro.cell_slab k1.1 k1.2.1 (hro.region_cell k1.1 k1.2.1 (slot_in_region hro k1.1 k1.2.1 q1 q2 k3))] at hs
    cases hs
  · have := UsableIs.live hro l (Or.inr ⟨gd, k1⟩)
    rw [hl] at this; cases this
  · rw [if_neg k0, k1]; decide

/-- C27. `malloc_object_size_fast` is an upper bound, too, and needs neither the lock nor a valid state. -/
theorem c27_fast (hg : Good g ar) (r : Reach g ro ar calm D h s) {p q u : Nat} (hp : p < W64)
    (hl : (live h q).isSome) (hu : Usable ro s.σ q u) (h1 : q ≤ p) (h2 : p < q + u) :
    ∃ s' n, s.call ro ar t (.objectSizeFast p) chs = .ok (s', .num n) ∧ Same1 s s' t ∧ q + u - p ≤ n := by
  obtain ⟨hro, rfl⟩ := r.roOk hg
  obtain ⟨w, f, _⟩ := r.fits hg
  have l := f.linked
  rw [← f.σ] at hu
  have hi := hu.is hro l hl
  have h0 : p ≠ 0 := fun e => hi.pos hro l (by omega)
  have key : ∃ n, hObjectSizeFast ro p = pure n ∧ q + u - p ≤ n := by
    unfold hObjectSizeFast
    rw [if_neg h0]
    rcases hi with ⟨a, c, i, k, h3, hu2⟩ | ⟨gd, h3⟩
    · have hne : ro.g.classSize c ≠ 0 := by
        intro e
        rw [if_pos e] at hu2; omega
      rw [if_neg hne] at hu2
      have hz : ro.g.usable c = ro.g.classSize c - ro.g.canarySize := by unfold Cfg.usable Cfg.slotSize; rw [if_neg hne]
      have hz2 : ro.g.slotSize c = ro.g.classSize c := by unfold Cfg.slotSize; rw [if_neg hne]
      obtain ⟨q1, q2, _⟩ := h3.lt l.inv
      have hin : inRange q (ro.g.slotSize c) p := by unfold inRange; omega
      rw [h3.2.2.1] at hin
      have hcell := hro.region_cell h3.1 h3.2.1 (slot_in_region hro h3.1 h3.2.1 q1 q2 hin)
      have e := hro.sizeClassOf h3.1 h3.2.1 hcell
      have e2 : ro.slabUsableSize p = ro.g.classSize c := by unfold Ro.slabUsableSize; rw [e]
      rw [hro.cell_slab h3.1 h3.2.1 hcell, e2]
      refine ⟨_, rfl, ?_⟩
      rw [if_neg hne]
      omega
    · have hx : ro.inSlab p = false := by
        rcases UsableIs.extent hro l (Or.inr ⟨gd, h3⟩) h1 (by omega) with ⟨a, c, i, k, j1, _⟩ | j1
        · exact (not_small_has hro l.inv j1 h3).elim
        · cases e : ro.inSlab p with
          | false => rfl
          | true => rw [inSlab_iff hro l.inv, j1] at e; exact absurd e (by simp)
      rw [hx]
      refine ⟨W64 - 1, rfl, ?_⟩
      have := (l.inv.reg _ h3).hi
      simp only at this
      have := pageUp_le_iff (n := u)
      omega
  obtain ⟨n, k1, k2⟩ := key
  refine ⟨{ σ := s.σ, tl := fun u => if u = t then s.tl t else s.tl u }, n, ?_, ⟨rfl, ?_, fun u hu => if_neg hu⟩, k2⟩
  · unfold Sys.call Call.prog
    simp only
    rw [k1]
    rfl
  · show (if t = t then s.tl t else _ : Tl).errno = _
    rw [if_pos rfl]

/-- C27. In the class of zero byte blocks the claim is false of the code: with `p = malloc(0)`, `malloc_object_size(p + 4096)`
locates the slab with the size 0 and reads a bitmap out of its bounds. -/
theorem c27_zero_class_ub : ∃ h s, Reach (exCfg false false) (exRo false false) (fun t => t % 4) false (goodClient (exRo false false)) h s ∧
    ∃ p chs, live h p = some ⟨0, none⟩ ∧ (∀ n, Env false (chs n)) ∧
      ∃ why, s.call (exRo false false) (fun t => t % 4) 0 (.objectSize (p + 4096)) chs = .ub why := by
  obtain ⟨h, s, h1, h2⟩ := ex_good (stats := false) (sealed := false) (calm := false)
    [.call 0 (.malloc 0) 0]
    (fun h s => (blocks h).any fun p => decide (live h p = some ⟨0, none⟩) && (s.call (exRo false false) (fun t => t % 4) 0 (.objectSize (p + 4096)) fun _ => Choice.quiet).isUb)
    (by decide +kernel)
  simp only [List.any_eq_true, Bool.and_eq_true, decide_eq_true_eq] at h2
  obtain ⟨p, _, h3, h4⟩ := h2
  refine ⟨h, s, h1, p, fun _ => Choice.quiet, h3, fun n => Env.quiet _, ?_⟩
  revert h4
  cases s.call (exRo false false) (fun t => t % 4) 0 (.objectSize (p + 4096)) fun _ => Choice.quiet with
  | ub m => exact fun _ => ⟨m, rfl⟩
  | _ => intro h4; cases h4

/-- Pointers into the middle of a small and of a large block, and one to unknown memory. -/
example : ∃ h s, Reach (exCfg false true) (exRo false true) (fun t => t % 4) false (goodClient (exRo false true)) h s ∧
    (live h exA).isSome ∧ Usable (exRo false true) s.σ exA 104 ∧ (live h exBig).isSome ∧ Usable (exRo false true) s.σ exBig 229376 ∧ live h 4096 = none ∧ 4096 < (exRo false true).slabStart := by
  obtain ⟨h, s, h1, h2⟩ := ex_good (stats := false) (sealed := true) (calm := false)
    [.call 0 (.malloc 100) 0, .call 0 (.malloc 200000) exMapAt]
    (fun h s => decide ((live h exA).isSome) && (decide (usableB (exRo false true) s.σ exA = some 104) && (decide ((live h exBig).isSome) && (decide (usableB (exRo false true) s.σ exBig = some 229376) && decide (live h 4096 = none)))))
    (by decide +kernel)
  simp only [Bool.and_eq_true, decide_eq_true_eq] at h2
  exact ⟨h, s, h1, h2.1, usableB_usable h2.2.1, h2.2.2.1, usableB_usable h2.2.2.2.1, h2.2.2.2.2, by decide⟩

/-! ### C14, C15 for blocks -/

/-- C14. A live block that comes from `malloc(n)` (or `calloc` or `realloc`), `n` small: its usable size is the smallest
that any size class offers and that is at least `n`; with the canary, the waste is at most 15 bytes up to 128 bytes and
less than a fifth of the size above. -/
theorem c14_malloc (hg : Good g ar) (r : Reach g ro ar calm D h s) {p n u : Nat} (hl : live h p = some ⟨n, none⟩) (hu : Usable ro s.σ p u)
    (hs : n = 0 ∨ n + g.canarySize ≤ g.maxSlab) :
    n ≤ u ∧ (∃ c, c < nClasses g ∧ u = g.offers c) ∧ (∀ c, c < nClasses g → n ≤ g.offers c → u ≤ g.offers c) ∧ (n = 0 → u = 0) ∧
    (n + g.canarySize ≤ 128 → u < n + 16) ∧ (128 < n + g.canarySize → 5 * (u - n) < u + g.canarySize) := by
  have e := c12_malloc_usable hg r hl hu
  have hcan := canarySize_le g
  unfold Cfg.mallocUsable at e
  rcases Nat.eq_zero_or_pos n with rfl | h0
  · have ha : adjustSizeForCanary g 0 = 0 := by unfold adjustSizeForCanary; rw [if_neg (by omega)]
    rw [ha, if_pos (Nat.zero_le _)] at e
    have e0 : g.offers (g.clsOf 0) = 0 := by
      unfold Cfg.offers
      rw [if_pos ((clsOf_zero (Nat.zero_le _)).mp rfl)]
    have hlt : g.clsOf 0 < nClasses g := clsOf_lt (Nat.zero_le _)
    refine ⟨by omega, ⟨_, hlt, e⟩, fun c _ _ => by omega, fun _ => by omega, fun _ => by omega, fun _ => by omega⟩
  · have hs : n + g.canarySize ≤ g.maxSlab := by omega
    have ha : adjustSizeForCanary g n = n + g.canarySize := by unfold adjustSizeForCanary; rw [if_pos (by omega)]
    rw [ha, if_pos hs] at e
    have h1 := le_classSize hs
    have h2 := c14_waste g _ hs
    rw [← classSize_clsOf hs] at h2
    have h3 : u = g.classSize (g.clsOf (n + g.canarySize)) - g.canarySize := by
      rw [e]
      unfold Cfg.offers
      rw [if_neg (by omega)]
    refine ⟨by omega, ⟨_, clsOf_lt hs, e⟩, fun c hc h => ?_, fun h => by omega, fun h => ?_, fun h => ?_⟩
    · rw [e]; exact offers_mono hc h h0 hs
    · have := h2.1 h; omega
    · have := h2.2 h; omega

/-- C15. A live block that comes from `malloc(n)` (or `calloc` or `realloc`), `n` large: its usable size is a multiple of the
page size and at least `n`, and the waste is less than a quarter (less than a page without `CONFIG_LARGE_SIZE_CLASSES`). The
canary is counted with sizes that are large only because of it. -/
theorem c15_malloc (hg : Good g ar) (r : Reach g ro ar calm D h s) {p n u : Nat} (hl : live h p = some ⟨n, none⟩) (hu : Usable ro s.σ p u)
    (hs : n ≠ 0 ∧ g.maxSlab < n + g.canarySize) :
    n ≤ u ∧ 4096 ∣ u ∧ u < 2 ^ 64 ∧ (g.largeClasses = true → 4 * (u - (n + g.canarySize)) < n + g.canarySize) ∧
    (g.largeClasses = false → u < n + g.canarySize + 4096) ∧ (g.maxSlab < n → g.largeClasses = true → 4 * (u - n) < n) ∧
    (g.maxSlab < n → g.largeClasses = false → u < n + 4096) := by
  have e := c12_malloc_usable hg r hl hu
  have hcan := canarySize_le g
  obtain ⟨hro, rfl⟩ := r.roOk hg
  obtain ⟨w, f, _⟩ := r.fits hg
  have hn := (f.linked.sized p _ hl).1
  simp only at hn
  have hpos : n ≤ u := by
    rw [← f.σ] at hu
    obtain ⟨u', h1, h2⟩ := f.linked.usable hl
    rw [(hu.is hro f.linked (by rw [hl]; rfl)).uniq hro f.linked.inv h1]
    exact h2
  have h16 : 16384 ≤ ro.g.maxSlab := by rcases maxSlab_cases ro.g with ⟨_, e⟩ | ⟨_, e⟩ <;> omega
  have ha : ro.g.maxSlab < adjustSizeForCanary ro.g n ∧ n ≤ adjustSizeForCanary ro.g n ∧ adjustSizeForCanary ro.g n ≤ n + ro.g.canarySize ∧
      (ro.g.maxSlab < n → adjustSizeForCanary ro.g n = n) := by
    unfold adjustSizeForCanary; split <;> omega
  have hlt := adjust_lt (g := ro.g) hn
  unfold Cfg.mallocUsable at e
  rw [if_neg (by omega)] at e
  generalize adjustSizeForCanary ro.g n = m at *
  have h1 := c15_large_rounding ro.g m (by omega) hlt
  rw [← e] at h1
  obtain ⟨h2, h3, h4, h5, h6⟩ := h1.2 (by omega)
  refine ⟨hpos, h4, h3, fun k => ?_, fun k => ?_, fun k1 k => ?_, fun k1 k => ?_⟩
  · have := h5 k; omega
  · have := h6 k; omega
  · have := h5 k; have := ha.2.2.2 k1; omega
  · have := h6 k; have := ha.2.2.2 k1; omega

/-- Such blocks: a small and a large one. -/
example : ∃ h s, Reach (exCfg false true) (exRo false true) (fun t => t % 4) false (goodClient (exRo false true)) h s ∧
    live h exA = some ⟨100, none⟩ ∧ Usable (exRo false true) s.σ exA 104 ∧ live h exBig = some ⟨200000, none⟩ ∧ Usable (exRo false true) s.σ exBig 229376 := by
  obtain ⟨h, s, h1, h2⟩ := ex_good (stats := false) (sealed := true) (calm := false)
    [.call 0 (.malloc 100) 0, .call 0 (.malloc 200000) exMapAt]
    (fun h s => decide (live h exA = some ⟨100, none⟩) && (decide (usableB (exRo false true) s.σ exA = some 104) && (decide (live h exBig = some ⟨200000, none⟩) && decide (usableB (exRo false true) s.σ exBig = some 229376))))
    (by decide +kernel)
  simp only [Bool.and_eq_true, decide_eq_true_eq] at h2
  exact ⟨h, s, h1, h2.1, usableB_usable h2.2.1, h2.2.2.1, usableB_usable h2.2.2.2⟩

end HM
