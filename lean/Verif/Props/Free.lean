import Verif.Facts
import Verif.Example
import Verif.Props.Layout
/-
C04, C05, C11, C13, C46. Which calls abort, and which do not.
-/
namespace HM

variable {g : Cfg} {ro : Ro} {ar : Nat → Nat} {calm : Bool} {D : Client} {h : List Ev} {s : Sys} {t : Nat} {chs : Nat → Choice}

/-- The kernel refuses system calls for lack of memory only. -/
def OnlyEnomem (chs : Nat → Choice) : Prop :=
  ∀ n, (∀ k, (chs n).sys k ≠ .other) ∧ (chs n).growRemap ≠ .other ∧ (chs n).trailUnmap ≠ .other

theorem OnlyEnomem.no (h : OnlyEnomem chs) (n : Nat) : ¬ SysOther (chs n) := by
  rintro (⟨k, e⟩ | e | e)
  · exact (h n).1 k e
  · exact (h n).2.1 e
  · exact (h n).2.2 e

theorem lend_nobody {L : Nat → Option Info} {w : World} (l : Linked ro L w) (t p : Nat) : (w.lend t).G.blk p = .nobody ↔ L p = none := by
  have := (l.lend t).blk p
  cases e : L p with
  | none => rw [e] at this; simpa using this
  | some i => rw [e] at this; simpa using this

theorem not_mine {L : Nat → Option Info} {w : World} (l : Linked ro L w) {p : Nat} (h : L p = none) : ¬ Mine t p (w.lend t) := fun m => by
  have := (lend_nobody l t p).mpr h
  rw [m.blk] at this; cases this

/-- An address that is not live becomes live only by being returned. -/
theorem liveStep_none {L : Nat → Option Info} {p : Nat} (h1 : L p = none) {e : Ev} (h2 : ∀ v c y, e = .call v c y → y.block ≠ some p) :
    liveStep L e p = none := by
  cases e with
  | store => exact h1
  | errno => exact h1
  | foreign => exact h1
  | call v c y =>
    have h3 := h2 v c y rfl
    have key : ∀ i : Option Info, (match i, y.block with | some i, some q => fun x => if x = q then some i else L x | _, _ => L) p = none := fun i => by
      cases i with
      | none => exact h1
      | some i =>
        cases e : y.block with
        | none => exact h1
        | some q => rw [e] at h3; show (if p = q then some i else _) = _; rw [if_neg (fun k => h3 (by rw [k]))]; exact h1
    cases c with
    | free q => show (if p = q then none else _) = _; split <;> [rfl; exact h1]
    | freeSized q n => show (if p = q then none else _) = _; split <;> [rfl; exact h1]
    | realloc q n =>
      simp only [liveStep]
      cases e : y.block with
      | none => exact h1
      | some q' =>
        rw [e] at h3
        have hne : p ≠ q' := fun k => h3 (by rw [k])
        simp only
        by_cases k : q = 0
        · rw [if_pos k]; show (if p = q' then _ else L p) = _; rw [if_neg hne]; exact h1
        · rw [if_neg k]
          cases L q with
          | none => exact h1
          | some i => show (if p = q' then _ else if p = q then none else L p) = _; rw [if_neg hne]; split <;> [rfl; exact h1]
    | malloc n => exact key _
    | calloc n k => exact key _
    | posixMemalign al n => exact key _
    | alignedAlloc al n => exact key _
    | valloc n => exact key _
    | pvalloc n => exact key _
    | usableSize q => exact key none
    | objectSize q => exact key none
    | objectSizeFast q => exact key none
    | trim => exact key none
    | mallinfo => exact key none

/-! ### C04 -/

/-- C04. `free` of a pointer that is not NULL and not the address of a live block aborts: it does not return, does not
fault, and causes no undefined behaviour. The application is arbitrary: it may have overwritten freed memory and
canaries, and freed blocks twice. -/
theorem c04_free_detected (hg : Good g ar) (r : Reach g ro ar calm D h s) (he : ∀ n, Env calm (chs n)) {p : Nat} (hp : p < W64) (h0 : p ≠ 0)
    (hl : live h p = none) : ∃ m, s.call ro ar t (.free p) chs = .fatal m := by
  obtain ⟨w, f, _, _, h1⟩ := r.spec (c := .free p) hg t hp he
  cases hc : s.call ro ar t (.free p) chs with
  | fatal m => exact ⟨m, rfl⟩
  | ok x =>
    obtain ⟨s', x⟩ := x
    rw [hc] at h1
    obtain ⟨w', _, _, ⟨_, h2⟩, _⟩ := h1
    rcases h2 with ⟨h2, _⟩ | ⟨_, _, ⟨_, h2⟩ | ⟨_, h2⟩⟩
    · exact absurd h2 h0
    · exact absurd h2.mine (not_mine f.linked hl)
    · exact absurd h2.mine (not_mine f.linked hl)
  | segv => rw [hc] at h1; obtain ⟨n, w1, _, ⟨p, e, _⟩ | ⟨p, n, e, _⟩⟩ := h1 <;> cases e
  | ub m => rw [hc] at h1; obtain ⟨n, w1, _, ⟨p, e, _⟩ | ⟨p, n, _, _, e, _⟩⟩ := h1 <;> cases e
  | hang => rw [hc] at h1; obtain ⟨n, w1, _, ⟨p, e, _⟩⟩ := h1; cases e

/-- C04. The same for `free_sized`. -/
theorem c04_free_sized_detected (hg : Good g ar) (r : Reach g ro ar calm D h s) (he : ∀ n, Env calm (chs n)) {p n : Nat} (hp : p < W64) (hn : n < W64)
    (h0 : p ≠ 0) (hl : live h p = none) : ∃ m, s.call ro ar t (.freeSized p n) chs = .fatal m := by
  obtain ⟨w, f, _, _, h1⟩ := r.spec (c := .freeSized p n) hg t ⟨hp, hn⟩ he
  cases hc : s.call ro ar t (.freeSized p n) chs with
  | fatal m => exact ⟨m, rfl⟩
  | ok x =>
    obtain ⟨s', x⟩ := x
    rw [hc] at h1
    obtain ⟨w', _, _, ⟨_, h2⟩, _⟩ := h1
    rcases h2 with ⟨h2, _⟩ | ⟨_, ⟨_, h2⟩ | ⟨_, h2⟩⟩
    · exact absurd h2 h0
    · exact absurd h2.mine (not_mine f.linked hl)
    · exact absurd h2.mine (not_mine f.linked hl)
  | segv => rw [hc] at h1; obtain ⟨n, w1, _, ⟨p, e, _⟩ | ⟨p, n, e, _⟩⟩ := h1 <;> cases e
  | ub m => rw [hc] at h1; obtain ⟨n, w1, _, ⟨p, e, _⟩ | ⟨p, n, _, _, e, _⟩⟩ := h1 <;> cases e
  | hang => rw [hc] at h1; obtain ⟨n, w1, _, ⟨p, e, _⟩⟩ := h1; cases e

/-- C04. A double free: a block freed once, and not handed out again since, cannot be freed again. -/
theorem c04_double_free (hg : Good g ar) {p u : Nat} {evs : List Ev} {x : Ret} (r : Reach g ro ar calm D (evs ++ .call u (.free p) x :: h) s)
    (he : ∀ n, Env calm (chs n)) (hp : p < W64) (h0 : p ≠ 0) (hn : ∀ e ∈ evs, ∀ v c y, e = .call v c y → y.block ≠ some p) :
    ∃ m, s.call ro ar t (.free p) chs = .fatal m := by
  refine c04_free_detected hg r he hp h0 ?_
  clear r
  induction evs with
  | nil => exact if_pos rfl
  | cons e evs ih => exact liveStep_none (ih fun e h => hn e (List.mem_cons_of_mem _ h)) (hn e List.mem_cons_self)

/-- Such pointers: an interior pointer, a freed block, a slot never handed out, a guard slab, an address outside of all
mappings, a freed large block. -/
example : ∃ h s, Reach (exCfg false false) (exRo false false) (fun t => t % 4) false anyClient h s ∧
    (live h exA).isSome ∧ live h (exA + 16) = none ∧ live h exB = none ∧ live h (exB + 112) = none ∧ live h (exA + 4096) = none ∧ live h 64 = none ∧
    live h exBig = none ∧ ∃ evs h', h = evs ++ .call 1 (.free exB) .unit :: h' ∧ (live h' exB).isSome ∧
      ∀ e ∈ evs, ∀ v c y, e = Ev.call v c y → y.block ≠ some exB := by
  obtain ⟨h, s, h1, h2⟩ := ex_any (stats := false) (sealed := false) (calm := false)
    [.call 0 (.malloc 100) 0, .call 0 (.malloc 100) 0, .call 0 (.malloc 200000) exMapAt, .call 1 (.free exB) 0, .store exB 5, .call 1 (.free exBig) 0]
    (fun h s => (live h exA).isSome && decide (live h (exA + 16) = none) && decide (live h exB = none) && decide (live h (exB + 112) = none) &&
      decide (live h (exA + 4096) = none) && decide (live h 64 = none) && decide (live h exBig = none) &&
      match h with
      | .call 1 (.free q) _ :: .store _ _ :: .call 1 (.free p) .unit :: h' => decide (p = exB) && (live h' exB).isSome
      | _ => false)
    (by decide +kernel)
  simp only [Bool.and_eq_true, decide_eq_true_eq] at h2
  obtain ⟨⟨⟨⟨⟨⟨⟨q1, q2⟩, q3⟩, q4⟩, q5⟩, q6⟩, q7⟩, q8⟩ := h2
  revert q8
  split
  · rename_i q r0 x v p h'
    intro q8
    rw [Bool.and_eq_true, decide_eq_true_eq] at q8
    obtain ⟨rfl, q9⟩ := q8
    refine ⟨_, s, h1, q1, q2, q3, q4, q5, q6, q7, [.call 1 (.free q) r0, .store x v], h', rfl, q9, ?_⟩
    have h9 := h1
    obtain ⟨s0, _, st⟩ := Reach.split (evs := [.call 1 (.free q) r0]) (h0 := .store x v :: .call 1 (.free exB) .unit :: h') h1
    obtain ⟨w, w', C, _⟩ : ∃ w w', Called (exRo false false) (fun t => t % 4) false (.store x v :: .call 1 (.free exB) .unit :: h') s0 1 (.free q) s r0 w w' ∧ True := by
      cases st with
      | step hr ha hd hs =>
        rename_i s1 a
        cases a with
        | store => cases hs
        | errno => cases hs
        | call t c chs =>
          cases hr
          rename_i r2
          unfold Sys.step at hs
          simp only at hs
          revert hs
          cases hc : s0.call (exRo false false) (fun t => t % 4) t c chs with
          | ok y =>
            intro hs; cases hs
            obtain ⟨w, w', C, _⟩ := r2.called (exGood false false) ha.1 ha.2 hc
            exact ⟨w, w', C, trivial⟩
          | _ => intro hs; cases hs
    intro e he v' c y k
    rcases List.mem_cons.mp he with rfl | he
    · cases k; rw [C.res.1]; simp [Ret.block]
    · rcases List.mem_cons.mp he with rfl | he
      · cases k
      · cases he
  · intro q8; cases q8

/-! ### C05 -/

theorem good_freeSized (hro : RoOk ro) {L : Nat → Option Info} {w : World} (l : Linked ro L w) {p n : Nat} (hl : L p = some ⟨n, none⟩) :
    ¬ ((∃ a c i k, IsSmall ro w.σ p a c i k ∧ (getSizeInfo (adjustSizeForCanary ro.g n)).size ≠ ro.g.classSize c) ∨
      (∃ s g, w.σ.rt.Has ⟨p, s, g⟩ ∧ s ≠ getLargeSizeClass ro.g (adjustSizeForCanary ro.g n))) := by
  have h1 := (l.sized p _ hl).2
  simp only at h1
  rintro (⟨a, c, i, k, h2, h3⟩ | ⟨s, gd, h2, h3⟩) <;> rcases h1 with ⟨h4, a', i', k', h5⟩ | ⟨h4, g', h5⟩
  · obtain ⟨_, rfl, _⟩ := h2.uniq hro l.inv h5
    rw [classSize_clsOf h4] at h3; exact h3 rfl
  · exact not_small_has hro l.inv h2 h5
  · exact not_small_has hro l.inv h5 h2
  · have := l.inv.has_unique h2 h5 rfl
    injection this with _ e
    exact h3 e

theorem good_object (hro : RoOk ro) {L : Nat → Option Info} {w : World} (l : Linked ro L w) {p q u : Nat} (hu : UsableIs ro w q u)
    (h1 : q ≤ p) (h2 : p < q + u) : ro.inSlab p = false ∨ ((ro.sizeClassOf p).2 ≠ 0 ∧ ∃ a c i k, IsSmall ro w.σ q a c i k ∧ inRange q (ro.g.slotSize c) p) := by
  rcases hu.extent hro l h1 (by omega) with ⟨a, c, i, k, h3, h4⟩ | h3
  · refine Or.inr ⟨?_, a, c, i, k, h3, h4⟩
    obtain ⟨q1, q2, _⟩ := h3.lt l.inv
    have e := hu.uniq hro l.inv (Or.inl ⟨a, c, i, k, h3, rfl⟩)
    have h5 := h4
    rw [h3.2.2.1] at h5
    rw [hro.sizeClassOf h3.1 h3.2.1 (hro.region_cell h3.1 h3.2.1 (slot_in_region hro h3.1 h3.2.1 q1 q2 h5))]
    intro e0
    rw [if_pos ((classGeo ro.g h3.2.1).zero_iff.mp e0)] at e
    omega
  · left
    cases e : ro.inSlab p with
    | false => rfl
    | true => rw [inSlab_iff hro l.inv, h3] at e; cases e

theorem good_realloc (hro : RoOk ro) {L : Nat → Option Info} {w : World} (l : Linked ro L w) {p : Nat} {i : Info} (hl : L p = some i)
    (ho : ¬ OverAligned ro.g i) {s gd : Nat} (h1 : w.σ.rt.Has ⟨p, s, gd⟩) : ro.g.maxSlab < s := by
  obtain ⟨h0, h2⟩ := l.sized p i hl
  have key : ∀ s', s' < W64 → SizeKind ro w p s' → ro.g.maxSlab < s := by
    rintro s' hs (⟨_, a, j, k, h3⟩ | ⟨h3, g', h4⟩)
    · exact (not_small_has hro l.inv h3 h1).elim
    · have := l.inv.has_unique h1 h4 rfl
      injection this with _ e
      have h5 := (l.inv.reg _ h1).size
      have := (getLargeSizeClass_ok ro.g hs (by simp only at h5; omega)).1
      omega
  cases e : i.align with
  | none => rw [e] at h2; exact key _ (adjust_lt h0) h2
  | some al =>
    rw [e] at h2
    obtain ⟨_, _, ⟨s', _, h3, _, _, h4⟩ | ⟨h3, h4, _⟩⟩ := h2
    · exact key _ h3 h4
    · refine absurd ⟨⟨al, e, h3⟩, ?_⟩ ho
      have := canarySize_le ro.g
      unfold adjustSizeForCanary at h4
      rcases maxSlab_cases ro.g with ⟨_, e⟩ | ⟨_, e⟩ <;> split at h4 <;> omega

/-- C05. In a program without memory errors no allocator call aborts, faults, loops or causes undefined behaviour, as
long as the kernel refuses system calls for lack of memory only. The restrictions that `goodClient` puts on `realloc` of
over-aligned blocks and on `free_sized` of aligned blocks are discussed at C11 and C12. -/
theorem c05_no_abort (hg : Good g ar) (r : Reach g ro ar calm (goodClient ro) h s) {c : Call} (hok : c.Ok) (he : ∀ n, Env calm (chs n))
    (hsys : OnlyEnomem chs) (hc : goodClient ro h s (.call t c chs)) : ∃ s' x, s.call ro ar t c chs = .ok (s', x) := by
  obtain ⟨hro, rfl⟩ := r.roOk hg
  obtain ⟨w, f, _, hcon, h1⟩ := r.spec (c := c) hg t hok he
  have hcon : Content ro (w.lend t) := hcon fun _ _ _ h => h
  have l := f.linked
  have hz : ¬ ZeroObj ro c := by
    rintro ⟨p, rfl, h2, h3⟩
    rcases hc with rfl | ⟨q, u, h4, h5, h6, h7⟩
    · have := hro.lo
      unfold Ro.inSlab at h2
      simp only [Bool.and_eq_true, decide_eq_true_eq] at h2
      omega
    · rw [← f.σ] at h5
      rcases good_object hro l (h5.is hro l h4) h6 h7 with h8 | ⟨h8, _⟩
      · rw [h8] at h2; cases h2
      · exact h8 h3
  have hb : ∀ p, (p = 0 ∨ (live h p).isSome) → ¬ BadArg ro (w.lend t) p := by
    rintro p hp ⟨h0, h2 | h2⟩
    · rw [lend_nobody l] at h2
      rcases hp with hp | hp
      · exact h0 hp
      · rw [h2] at hp; cases hp
    · exact hcon.canary_ok (l.lend t).inv h2
  cases hx : s.call ro ar t c chs with
  | ok x => exact ⟨x.1, x.2, rfl⟩
  | fatal m =>
    rw [hx] at h1
    obtain ⟨n, w1, h2, h3 | ⟨h3, h4⟩ | h3⟩ := h1
    · exact absurd h3 (hsys.no n)
    · exact absurd h4 (Content.not_dirty hro (h2.content hcon))
    · exfalso
      cases c with
      | free p => exact hb p hc h3
      | realloc p n => exact hb p (hc.imp id fun ⟨i, h, _⟩ => by rw [h]; rfl) h3
      | usableSize p => exact hb p hc h3
      | freeSized p n =>
        rcases h3 with h3 | h3
        · exact hb p (hc.imp id fun h => by rw [h]; rfl) h3
        · rcases hc with rfl | hc
          · rcases h3 with ⟨a, c, i, k, h3, _⟩ | ⟨s, gd, h3, _⟩
            · have : UsableIs ro w 0 _ := Or.inl ⟨a, c, i, k, h3, rfl⟩
              exact this.pos hro l rfl
            · have : UsableIs ro w 0 s := Or.inr ⟨gd, h3⟩
              exact this.pos hro l rfl
          · exact good_freeSized hro l hc h3
      | objectSize p =>
        obtain ⟨h0, h2, h4⟩ := h3
        obtain ⟨q, u, h5, h6, h7, h8⟩ := hc.resolve_left h0
        rw [← f.σ] at h6
        rcases good_object hro l (h6.is hro l h5) h7 h8 with h9 | ⟨h9, a, cl, i, k, k1, k2⟩
        · rw [h9] at h2; cases h2
        · rcases h4 with h4 | h4
          · exact h4 _ _ _ _ _ k1 k2
          · exact h9 h4
      | _ => exact h3
  | segv =>
    rw [hx] at h1
    obtain ⟨n, w1, _, h2 | ⟨p, n, rfl, h0, h2⟩⟩ := h1
    · exact absurd h2 hz
    · rw [lend_nobody l] at h2
      obtain ⟨i, h3, _⟩ := hc.resolve_left h0
      rw [h2] at h3; cases h3
  | ub m =>
    rw [hx] at h1
    obtain ⟨n, w1, _, h2 | ⟨p, n, s, gd, rfl, h2, h3⟩⟩ := h1
    · exact absurd h2 hz
    · rcases hc with rfl | ⟨i, h4, h5⟩
      · have : UsableIs ro w 0 s := Or.inr ⟨gd, h2⟩
        exact absurd rfl (this.pos hro l)
      · have := good_realloc hro l h4 h5 (h2 : w.σ.rt.Has _)
        omega
  | hang =>
    rw [hx] at h1
    obtain ⟨n, w1, _, h2⟩ := h1
    exact absurd h2 hz

/-- A run of such a program: blocks of all kinds, reallocation across kinds, deallocation, stores; the next call frees. -/
example : ∃ h s, Reach (exCfg true true) (exRo true true) (fun t => t % 4) false (goodClient (exRo true true)) h s ∧
    ∃ t p, p ≠ 0 ∧ goodClient (exRo true true) h s (.call t (.free p) fun _ => Choice.quiet) ∧ OnlyEnomem fun _ => Choice.quiet := by
  obtain ⟨h, s, h1, h2⟩ := ex_good (stats := true) (sealed := true) (calm := false)
    [.call 0 (.malloc 100) 0, .store exA 3, .call 0 (.calloc 3 100000) exMapAt, .call 1 (.realloc exA 20000) 0, .call 2 (.malloc 100) 0,
     .fail 3 (.malloc 400000) exMapAt 1, .call 0 (.malloc 100) 0, .call 3 .trim 0]
    (fun h s => (live h exB).isSome)
    (by decide +kernel)
  exact ⟨h, s, h1, 0, exB, by decide, Or.inr h2, fun n => ⟨fun _ => by simp [Choice.quiet], by simp [Choice.quiet], by simp [Choice.quiet]⟩⟩

/-! ### C11 -/

/-- C11, partial. `realloc` accepts every live block of a program without memory errors, except those created with an
alignment above the page size and a size that is that of a small block. -/
theorem c11_realloc_accepts_partial (hg : Good g ar) (r : Reach g ro ar calm (goodClient ro) h s) {p n : Nat} (hp : p < W64) (hn : n < W64)
    (he : ∀ n, Env calm (chs n)) (hsys : OnlyEnomem chs) {i : Info} (hl : live h p = some i) (ho : ¬ OverAligned g i) :
    ∃ s' x, s.call ro ar t (.realloc p n) chs = .ok (s', x) := by
  obtain ⟨_, rfl⟩ := r.roOk hg
  exact c05_no_abort hg r (c := .realloc p n) ⟨hp, hn⟩ he hsys (Or.inr ⟨i, hl, ho⟩)

/-- C11. For the blocks excluded above the claim is false of the code: `realloc(aligned_alloc(8192, 100), 200)` passes a
pointer that is not in the slab region to the function that frees slab slots, which indexes its tables out of bounds. -/
theorem c11_overaligned_realloc_ub : ∃ h s, Reach (exCfg false false) (exRo false false) (fun t => t % 4) false (goodClient (exRo false false)) h s ∧
    ∃ p chs, live h p = some ⟨100, some 8192⟩ ∧ (∀ n, Env false (chs n)) ∧ OnlyEnomem chs ∧
      ∃ why, s.call (exRo false false) (fun t => t % 4) 0 (.realloc p 200) chs = .ub why := by
  obtain ⟨h, s, h1, h2⟩ := ex_good (stats := false) (sealed := false) (calm := false)
    [.call 0 (.alignedAlloc 8192 100) exMapAt]
    (fun h s => (blocks h).any fun p => decide (live h p = some ⟨100, some 8192⟩) && (s.call (exRo false false) (fun t => t % 4) 0 (.realloc p 200) fun _ => Choice.quiet).isUb)
    (by decide +kernel)
  simp only [List.any_eq_true, Bool.and_eq_true, decide_eq_true_eq] at h2
  obtain ⟨p, _, h3, h4⟩ := h2
  refine ⟨h, s, h1, p, fun _ => Choice.quiet, h3, fun n => Env.quiet _, fun n => ⟨fun _ => by simp [Choice.quiet], by simp [Choice.quiet], by simp [Choice.quiet]⟩, ?_⟩
  revert h4
  cases s.call (exRo false false) (fun t => t % 4) 0 (.realloc p 200) fun _ => Choice.quiet with
  | ub m => exact fun _ => ⟨m, rfl⟩
  | _ => intro h4; cases h4

/-- A reallocation to which the first theorem applies. -/
example : ∃ h s, Reach (exCfg false false) (exRo false false) (fun t => t % 4) false (goodClient (exRo false false)) h s ∧
    live h exBig = some ⟨200000, none⟩ ∧ ¬ OverAligned (exCfg false false) ⟨200000, none⟩ := by
  obtain ⟨h, s, h1, h2⟩ := ex_good (stats := false) (sealed := false) (calm := false)
    [.call 0 (.malloc 200000) exMapAt] (fun h s => decide (live h exBig = some ⟨200000, none⟩)) (by decide +kernel)
  exact ⟨h, s, h1, of_decide_eq_true h2, fun ⟨⟨_, h, _⟩, _⟩ => by cases h⟩

/-! ### C13 -/

/-- C13. `free` accepts live zero byte blocks, whatever the application has done. -/
theorem c13_free_accepts (hg : Good g ar) (r : Reach g ro ar calm D h s) (he : ∀ n, Env calm (chs n)) (hsys : OnlyEnomem chs) {p : Nat} (hp : p < W64)
    (hl : live h p = some ⟨0, none⟩) : ∃ s', s.call ro ar t (.free p) chs = .ok (s', .unit) := by
  obtain ⟨hro, rfl⟩ := r.roOk hg
  obtain ⟨w, f, _, _, h1⟩ := r.spec (c := .free p) hg t hp he
  cases hc : s.call ro ar t (.free p) chs with
  | ok x =>
    obtain ⟨s', x⟩ := x
    rw [hc] at h1
    obtain ⟨w', _, _, ⟨rfl, _⟩, _⟩ := h1
    exact ⟨s', rfl⟩
  | fatal m =>
    exfalso
    rw [hc] at h1
    obtain ⟨n, w1, h2, h3 | ⟨h3, h4⟩ | ⟨_, h3 | ⟨_, a, c, i, k, h3, h4, _⟩⟩⟩ := h1
    · exact absurd h3 (hsys.no n)
    · exact h3
    · rw [lend_nobody f.linked, hl] at h3; cases h3
    · have h5 := (f.linked.sized p _ hl).2
      have e : adjustSizeForCanary ro.g 0 = 0 := by unfold adjustSizeForCanary; rw [if_neg (by omega)]
      simp only [e] at h5
      rcases h5 with ⟨h5, a', i', k', h6⟩ | ⟨h5, _⟩
      · obtain ⟨_, rfl, _⟩ := IsSmall.uniq hro f.linked.inv h6 h3
        exact h4 ((clsOf_zero h5).mp rfl)
      · omega
  | segv => rw [hc] at h1; obtain ⟨n, w1, _, ⟨p, e, _⟩ | ⟨p, n, e, _⟩⟩ := h1 <;> cases e
  | ub m => rw [hc] at h1; obtain ⟨n, w1, _, ⟨p, e, _⟩ | ⟨p, n, _, _, e, _⟩⟩ := h1 <;> cases e
  | hang => rw [hc] at h1; obtain ⟨n, w1, _, ⟨p, e, _⟩⟩ := h1; cases e

/-- A live zero byte block. -/
example : ∃ h s, Reach (exCfg false false) (exRo false false) (fun t => t % 4) false anyClient h s ∧ ∃ p, p < W64 ∧ live h p = some ⟨0, none⟩ := by
  obtain ⟨h, s, h1, h2⟩ := ex_any (stats := false) (sealed := false) (calm := false)
    [.call 0 (.malloc 0) 0] (fun h s => (blocks h).any fun p => decide (p < W64) && decide (live h p = some ⟨0, none⟩)) (by decide +kernel)
  simp only [List.any_eq_true, Bool.and_eq_true, decide_eq_true_eq] at h2
  obtain ⟨p, _, h3, h4⟩ := h2
  exact ⟨h, s, h1, p, h3, h4⟩

/-! ### C46 -/

/-- C46. `realloc` of a pointer that is not NULL and not live never yields a new block: it aborts or faults, or returns
NULL, or it returns the same pointer, which happens only for addresses in the area of the size class that the new size
belongs to (this case is not checked by the code). In the last two cases all live blocks are as before. -/
theorem c46_realloc (hg : Good g ar) (r : Reach g ro ar calm D h s) (he : ∀ n, Env calm (chs n)) {p n : Nat} (hp : p < W64) (hn : n < W64) (h0 : p ≠ 0)
    (hl : live h p = none) :
    (∃ m, s.call ro ar t (.realloc p n) chs = .fatal m) ∨ s.call ro ar t (.realloc p n) chs = .segv ∨
    ∃ s' q, s.call ro ar t (.realloc p n) chs = .ok (s', .ptr q) ∧ (∀ x, live (.call t (.realloc p n) (.ptr q) :: h) x = live h x) ∧
      (q = 0 ∨ (q = p ∧ ∃ a c, a < g.nArena ∧ c < nClasses g ∧ ro.cell a c ≤ p ∧ p < ro.cell a c + g.realClassRegionSize ∧
        n ≤ g.offers c ∧ ∀ c', c' < nClasses g → n ≤ g.offers c' → g.offers c ≤ g.offers c')) := by
  obtain ⟨hro, rfl⟩ := r.roOk hg
  obtain ⟨w, f, _, _, h1⟩ := r.spec (c := .realloc p n) hg t ⟨hp, hn⟩ he
  cases hc : s.call ro ar t (.realloc p n) chs with
  | fatal m => exact Or.inl ⟨m, rfl⟩
  | segv => exact Or.inr (Or.inl rfl)
  | hang => rw [hc] at h1; obtain ⟨n, w1, _, ⟨p, e, _⟩⟩ := h1; cases e
  | ub m =>
    rw [hc] at h1
    obtain ⟨n, w1, _, ⟨p, e, _⟩ | ⟨p, n, s, gd, e, h2, _⟩⟩ := h1
    · cases e
    · cases e
      have : UsableIs ro w p s := Or.inr ⟨gd, h2⟩
      have := this.live hro f.linked
      rw [hl] at this; cases this
  | ok x =>
    obtain ⟨s', x⟩ := x
    rw [hc] at h1
    obtain ⟨w', _, _, ⟨o, rfl, h2⟩, _⟩ := h1
    refine Or.inr (Or.inr ⟨s', o.getD 0, rfl, fun x => ?_, ?_⟩)
    · show liveStep _ _ _ = _
      simp only [liveStep]
      cases (Ret.ptr (o.getD 0)).block with
      | none => rfl
      | some q => simp only; rw [if_neg h0, hl]
    · cases o with
      | none => exact Or.inl rfl
      | some q =>
        right
        rcases h2 with ⟨h2, _⟩ | ⟨_, size, h3, _, h4 | ⟨_, ⟨h4, h5, h6⟩, rfl, _⟩⟩
        · exact absurd h2 h0
        · exact absurd h4.arg (not_mine f.linked hl)
        · obtain ⟨q1, q2, q3⟩ := hro.sizeClassOf_lt h4
          rcases h3 with ⟨rfl, _⟩ | ⟨_, _, h3, _⟩
          · unfold Ro.slabUsableSize at h6
            rw [← classSize_clsOf h5] at h6
            have e := classSize_inj (clsOf_lt h5) q2 h6
            have hadj : n ≠ 0 → adjustSizeForCanary ro.g n = n + ro.g.canarySize := by
              intro k
              unfold adjustSizeForCanary at *
              by_cases k1 : 0 < n ∧ n ≤ ro.g.maxSlab
              · rw [if_pos k1]
              · rw [if_neg k1] at h5; omega
            refine ⟨rfl, _, _, q1, q2, q3.1, q3.2, ?_, fun c' hc' k => ?_⟩
            · rw [← e]
              by_cases k : n = 0
              · omega
              · have e2 := hadj k
                rw [e2] at h5 ⊢
                have h7 := le_classSize h5
                unfold Cfg.offers
                rw [if_neg (by omega)]
                omega
            · rw [← e]
              by_cases k0 : n = 0
              · subst k0
                unfold Cfg.offers
                rw [if_pos ((clsOf_zero h5).mp (by unfold adjustSizeForCanary; rw [if_neg (by omega)]))]
                omega
              · have e2 := hadj k0
                rw [e2] at h5 ⊢
                exact offers_mono hc' k (by omega) h5
          · omega

/-- C46. While a small block is free, and no other live block contains it, `malloc_object_size` aborts on it, as it does on every
address of a size class that is not in the slot of a live block. Missing: the class of zero byte blocks, where the call may
have undefined behaviour (`c27_zero_class_ub`). -/
theorem c46_object_size_partial (hg : Good g ar) (r : Reach g ro ar calm D h s) (he : ∀ n, Env calm (chs n)) {p a c : Nat} (ha : a < g.nArena)
    (hc0 : 0 < c) (hc : c < nClasses g) (hp : ro.area a c p) (hp64 : p < W64)
    (hn : ∀ q i, live h q = some i → ¬ (q ≤ p ∧ p < q + g.classSize c)) : ∃ m, s.call ro ar t (.objectSize p) chs = .fatal m := by
  obtain ⟨hro, rfl⟩ := r.roOk hg
  obtain ⟨w, f, _, _, h1⟩ := r.spec (c := .objectSize p) hg t hp64 he
  have hcell := hro.region_cell ha hc hp
  have hs := hro.cell_slab ha hc hcell
  have hcls := hro.sizeClassOf ha hc hcell
  have hz : ¬ (ro.sizeClassOf p).2 = 0 := by rw [hcls]; simp only; omega
  cases hx : s.call ro ar t (.objectSize p) chs with
  | fatal m => exact ⟨m, rfl⟩
  | segv => rw [hx] at h1; obtain ⟨n, w1, _, ⟨p, e, _, h2⟩ | ⟨p, n, e, _⟩⟩ := h1 <;> cases e; exact absurd h2 hz
  | ub m => rw [hx] at h1; obtain ⟨n, w1, _, ⟨p, e, _, h2⟩ | ⟨p, n, _, _, e, _⟩⟩ := h1 <;> cases e; exact absurd h2 hz
  | hang => rw [hx] at h1; obtain ⟨n, w1, _, ⟨p, e, _, h2⟩⟩ := h1; cases e; exact absurd h2 hz
  | ok x =>
    exfalso
    obtain ⟨s', x⟩ := x
    rw [hx] at h1
    obtain ⟨w', _, _, ⟨n, _, _, _, h2⟩, _⟩ := h1
    rcases h2 with ⟨_, h2, _⟩ | ⟨h2, _⟩ | ⟨_, q, a', c', i, k, h2, h3, h4, _⟩ | ⟨_, h2, _⟩
    · exact hz h2
    · subst h2
      have := hro.lo
      unfold Ro.inSlab at hs
      simp only [Bool.and_eq_true, decide_eq_true_eq] at hs
      omega
    · have h2 : IsSmall ro w.σ q a' c' i k := h2
      have hlive : UsableIs ro w q _ := Or.inl ⟨a', c', i, k, h2, rfl⟩
      have h5 := hlive.live hro f.linked
      obtain ⟨j, h5⟩ := Option.isSome_iff_exists.mp h5
      obtain ⟨q1, q2, _⟩ := h2.lt f.linked.inv
      have h6 := h4
      rw [h2.2.2.1] at h6
      obtain ⟨rfl, rfl⟩ := hro.cell_inj ha hc h2.1 h2.2.1 hcell (hro.region_cell h2.1 h2.2.1 (slot_in_region hro h2.1 h2.2.1 q1 q2 h6))
      refine hn q j h5 ?_
      unfold inRange Cfg.slotSize at h4
      rw [if_neg h3] at h4; exact h4
    · rw [hs] at h2; cases h2

/-- A freed block: none of the functions accepts it. -/
example : ∃ h s, Reach (exCfg false false) (exRo false false) (fun t => t % 4) false anyClient h s ∧
    live h exA = none ∧ (live h exB).isSome ∧ (exRo false false).area 0 7 exA ∧
    (∀ q i, live h q = some i → ¬ (q ≤ exA ∧ exA < q + (exCfg false false).classSize 7)) := by
  obtain ⟨h, s, h1, h2⟩ := ex_any (stats := false) (sealed := false) (calm := false)
    [.call 0 (.malloc 100) 0, .call 0 (.malloc 100) 0, .call 0 (.free exA) 0]
    (fun h s => match h with
      | [.call 0 (.free p) .unit, .call 0 (.malloc 100) (.ptr q), .call 0 (.malloc 100) (.ptr r)] => decide (p = exA) && decide (q = exB) && decide (r = exA)
      | _ => false)
    (by decide +kernel)
  revert h2
  split
  · rename_i p q r
    simp only [Bool.and_eq_true, decide_eq_true_eq]
    rintro ⟨⟨rfl, rfl⟩, rfl⟩
    refine ⟨_, s, h1, by decide, by decide, ⟨by decide +kernel, by decide +kernel⟩, fun q i hq => ?_⟩
    have e : (exCfg false false).classSize 7 = 112 := by decide
    rw [e]
    have : q = exB := by
      simp only [live, liveStep, Call.request, Ret.block] at hq
      by_contra hne
      by_cases k : q = exA
      · rw [if_pos k] at hq; cases hq
      · rw [if_neg k] at hq
        simp only [exB, exA] at *
        simp [hne, k] at hq
    subst this
    decide
  · intro h2; cases h2

end HM
