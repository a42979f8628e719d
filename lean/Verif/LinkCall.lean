import Verif.Link
/-
What each API call does, when calls follow one another.
-/
namespace HM

variable {ro : Ro} {t : Nat}

/-- The outcome of an allocation of `n` bytes. -/
def MallocPost (ro : Ro) (t a n : Nat) (w : World) (o : Option Nat) (e : Errno) (w' : World) : Prop :=
  match o with
  | none => Denied .seq ro t a (adjustSizeForCanary ro.g n) w e w'
  | some p => Got .seq ro t a (adjustSizeForCanary ro.g n) w p w'

/-- The outcome of `calloc`. -/
def CallocPost (ro : Ro) (t a N : Nat) (w : World) (o : Option Nat) (e : Errno) (w' : World) : Prop :=
  match o with
  | none => (W64 ≤ N ∧ e = ENOMEM ∧ Idle .seq ro t w w') ∨ (N < W64 ∧ Denied .seq ro t a (adjustSizeForCanary ro.g N) w e w')
  | some p => N < W64 ∧ GotZero .seq ro t a N w p w'

/-- What call `c` of thread `t` (using arena `a`) did to world `w`. -/
def CallPost (ro : Ro) (t a : Nat) (c : Call) (w : World) (tl : Tl) (r : Ret) (tl' : Tl) (w' : World) : Prop :=
  match c with
  | .malloc n => ∃ o, r = retPtr o ∧ MallocPost ro t a n w o tl'.errno w'
  | .calloc n k => ∃ o, r = retPtr o ∧ CallocPost ro t a (n * k) w o tl'.errno w'
  | .realloc p n => ∃ o, r = retPtr o ∧ ReallocPost .seq ro t a p n w o tl'.errno w'
  | .posixMemalign al n => ∃ o, r = .memalign o ∧ AlPost .seq ro t a al (adjustSizeForCanary ro.g n) 8 w o w'
  | .alignedAlloc al n => ∃ o, r = retPtr o ∧ AlSimple .seq ro t a al (adjustSizeForCanary ro.g n) w o tl' w'
  | .valloc n => ∃ o, r = retPtr o ∧ AlSimple .seq ro t a PAGE (adjustSizeForCanary ro.g n) w o tl' w'
  | .pvalloc n => ∃ o, r = retPtr o ∧ ((pageAlign n = 0 ∧ o = none ∧ tl'.errno = ENOMEM ∧ Idle .seq ro t w w') ∨
      (pageAlign n ≠ 0 ∧ AlSimple .seq ro t a PAGE (adjustSizeForCanary ro.g (pageAlign n)) w o tl' w'))
  | .free p => r = .unit ∧ ((p = 0 ∧ tl' = tl ∧ w' = w) ∨ (p ≠ 0 ∧
      (tl'.errno = tl.errno ∨ (ro.inSlab p = true ∧ ∃ ch : Choice, tl'.errno = ch.label 0 tl.errno)) ∧ Freed .seq ro t p none none w w'))
  | .freeSized p n => r = .unit ∧ ((p = 0 ∧ tl' = tl ∧ w' = w) ∨ (p ≠ 0 ∧
      Freed .seq ro t p (some (getSizeInfo (adjustSizeForCanary ro.g n)).size) (some (adjustSizeForCanary ro.g n)) w w'))
  | .usableSize p => ∃ u, r = .num u ∧ tl'.errno = tl.errno ∧ w' = w ∧
      ((p = 0 ∧ u = 0) ∨ (p ≠ 0 ∧ Mine t p w ∧ UsableIs ro w p u ∧ ∀ a c i k, IsSmall ro w.σ p a c i k → Untagged ro w → CanaryOk ro w p a c i))
  | .objectSize p => ∃ n, r = .num n ∧ tl'.errno = tl.errno ∧ w' = w ∧
      ((ro.inSlab p = true ∧ (ro.sizeClassOf p).2 = 0 ∧ n = 0) ∨ ObjSize ro w p n)
  | .objectSizeFast p => tl' = tl ∧ w' = w ∧ r = .num (if p = 0 then 0 else if ro.inSlab p then
      (if ro.slabUsableSize p = 0 then 0 else ro.slabUsableSize p - ro.g.canarySize) else W64 - 1)
  | .trim => ∃ b, r = .bool b ∧ Idle .seq ro t w w' ∧ LostPages w b w' ∧
      (w.G.calm = true → ∀ a, a < ro.g.nArena → ∀ c, 0 < c → c < nClasses ro.g → (w'.σ.sc a c).emptyTotal = 0)
  | .mallinfo => ∃ i, r = .info i ∧ tl'.errno = tl.errno ∧ w' = w ∧ (ro.g.stats = true →
        i.hblkhd = (w.σ.largeAllocated + sumAll ro fun a c => (w.σ.sc a c).slabAllocated) % W64 ∧
        i.uordblks = (w.σ.largeAllocated + sumAll ro fun a c => (w.σ.sc a c).allocated) % W64 ∧
        i.fordblks = sub64 i.hblkhd i.uordblks ∧ i.usmblks = i.hblkhd)

/-- The pointer is not a live block, or its canary is damaged. -/
def BadArg (ro : Ro) (w : World) (p : Nat) : Prop := p ≠ 0 ∧ (w.G.blk p = .nobody ∨ CanaryBad ro w p)

/-- Reasons for call `c` to abort that lie in its arguments. -/
def Excuse (ro : Ro) (c : Call) (w : World) : Prop :=
  match c with
  | .free p => BadArg ro w p
  | .realloc p _ => BadArg ro w p
  | .usableSize p => BadArg ro w p
  | .freeSized p n => BadArg ro w p ∨
      (∃ a c i k, IsSmall ro w.σ p a c i k ∧ (getSizeInfo (adjustSizeForCanary ro.g n)).size ≠ ro.g.classSize c) ∨
      (∃ s g, w.σ.rt.Has ⟨p, s, g⟩ ∧ s ≠ getLargeSizeClass ro.g (adjustSizeForCanary ro.g n))
  | .objectSize p => p ≠ 0 ∧ ro.inSlab p = true ∧
      ((∀ q a c i k, IsSmall ro w.σ q a c i k → ¬ inRange q (ro.g.slotSize c) p) ∨ (ro.sizeClassOf p).2 = 0)
  | _ => False

/-- `malloc_object_size` of a pointer into the area of zero byte allocations. -/
def ZeroObj (ro : Ro) (c : Call) : Prop := ∃ p, c = .objectSize p ∧ ro.inSlab p = true ∧ (ro.sizeClassOf p).2 = 0

/-- The call may allocate. -/
def Call.allocates : Call → Prop
  | .malloc _ | .calloc _ _ | .realloc _ _ | .posixMemalign _ _ | .alignedAlloc _ _ | .valloc _ | .pvalloc _ => True
  | _ => False

/-- The ways in which call `c`, made in world `w`, may fail to return; `ch` and `w1` are the environment's choices and the
world at that point. -/
def CallF (ro : Ro) (c : Call) (w : World) (b : Bad) (ch : Choice) (w1 : World) : Prop :=
  match b with
  | .fatal _ => SysOther ch ∨ (c.allocates ∧ Dirty ro w1) ∨ Excuse ro c w
  | .segv => ZeroObj ro c ∨ ∃ p n, c = .realloc p n ∧ p ≠ 0 ∧ w.G.blk p = .nobody
  | .ub _ => ZeroObj ro c ∨ ∃ p n s g, c = .realloc p n ∧ w.σ.rt.Has ⟨p, s, g⟩ ∧ s ≤ ro.g.maxSlab
  | .hang => ZeroObj ro c

theorem CallF.fsys (c : Call) (w : World) : FSys (CallF ro c w) := fun _ _ _ h => Or.inl h
theorem CallF.dirty {c : Call} (w : World) (hc : c.allocates) : FDirty ro (CallF ro c w) := fun _ _ h => Or.inr (Or.inl ⟨hc, h⟩)

/-- The call is run with all blocks in the hands of `t`. -/
structure Ready (ro : Ro) (t : Nat) (w : World) : Prop where
  inv : GInv ro w
  stat : StatOk ro w
  all : ∀ p, w.G.blk p = .nobody ∨ w.G.blk p = .thr t
  eff : ∀ p, w.G.eff p = none

theorem Ready.arg {w : World} (h : Ready ro t w) (p : Nat) : FreeArg .seq t p w :=
  (h.all p).elim (fun e => Or.inr ⟨rfl, e⟩) fun e => Or.inl ⟨e, h.eff p⟩

theorem BadArg.ffree {w : World} {p : Nat} (h0 : p ≠ 0) {F : Bad → Choice → World → Prop}
    (h : BadArg ro w p → ∀ msg ch w1, F (.fatal msg) ch w1) : FFree ro t p none none w F :=
  ⟨fun e => h ⟨h0, Or.inl e⟩, fun _ e => h ⟨h0, Or.inr e⟩, fun _ _ _ _ _ _ e => absurd e (by simp), fun _ _ _ _ e => absurd e (by simp)⟩

/-- What each call does. -/
theorem call_wp {a : Nat} {c : Call} {tl : Tl} {w : World} (hro : RoOk ro) (hr : Ready ro t w) (htl : tl.unsealed = false)
    (ha : a < ro.g.nArena) (hok : c.Ok) :
    WP .seq ro t (CallF ro c w) (c.prog ro a) (fun r tl' w' => tl'.unsealed = false ∧ CallPost ro t a c w tl r tl' w') tl w := by
  have hS := CallF.fsys (ro := ro) c w
  have hi := hr.inv
  cases c with
  | malloc n =>
    refine WP.andThen ((hMalloc_wp hro hS (CallF.dirty w trivial) hi ha hok).mono fun r tl1 w1 => ?_)
    rintro ⟨h1, h2⟩
    exact WP.pure ⟨h1, r, rfl, h2⟩
  | calloc n k =>
    refine WP.andThen ((hCalloc_wp hro hS (CallF.dirty w trivial) hi ha).mono fun r tl1 w1 => ?_)
    rintro ⟨h1, h2⟩
    exact WP.pure ⟨h1.elim (fun h => h.2.trans htl) id, r, rfl, h2⟩
  | realloc p n =>
    refine WP.andThen ((hRealloc_wp hro hS (CallF.dirty w trivial) hi htl ha hok.2 (fun _ => hr.arg p) (fun h0 => BadArg.ffree h0 fun h _ _ _ => Or.inr (Or.inr h))
      (fun h0 h _ _ => Or.inr ⟨p, n, rfl, h0, h⟩) (fun s g _ h2 h3 _ _ _ => Or.inr ⟨p, n, s, g, rfl, h2, h3⟩)).mono fun r tl1 w1 => ?_)
    rintro ⟨h1, h2⟩
    exact WP.pure ⟨h1, r, rfl, h2⟩
  | posixMemalign al n =>
    refine WP.andThen ((allocAligned_wp hro hS (CallF.dirty w trivial) hi ha hok.2 hok.1 (by decide)).mono fun r tl1 w1 => ?_)
    rintro ⟨h1, h2⟩
    exact WP.pure ⟨h1, r, rfl, h2⟩
  | alignedAlloc al n =>
    refine WP.andThen ((allocAlignedSimple_wp hro hS (CallF.dirty w trivial) hi ha hok.2 hok.1).mono fun r tl1 w1 => ?_)
    exact fun h1 => WP.pure ⟨h1.1, r, rfl, h1⟩
  | valloc n =>
    refine WP.andThen ((allocAlignedSimple_wp hro hS (CallF.dirty w trivial) hi ha hok (by decide)).mono fun r tl1 w1 => ?_)
    exact fun h1 => WP.pure ⟨h1.1, r, rfl, h1⟩
  | pvalloc n =>
    refine WP.andThen ((hPvalloc_wp hro hS (CallF.dirty w trivial) hi ha).mono fun r tl1 w1 => ?_)
    rintro (⟨h1, h2, h3, h4, h5⟩ | ⟨h1, h2⟩)
    · exact WP.pure ⟨h4.trans htl, r, rfl, Or.inl ⟨h1, h2, h3, h5⟩⟩
    · exact WP.pure ⟨h2.1, r, rfl, Or.inr ⟨h1, h2⟩⟩
  | free p =>
    by_cases h0 : p = 0
    · subst h0; exact WP.pure ⟨htl, rfl, Or.inl ⟨rfl, rfl, rfl⟩⟩
    refine WP.andThen ((hFree_wp hro hS hi (fun _ => hr.arg p) (BadArg.ffree h0 fun h _ _ _ => Or.inr (Or.inr h))).mono fun r tl1 w1 => ?_)
    rintro (⟨h1, _⟩ | ⟨h1, h2, h3, h4⟩)
    · exact absurd h1 h0
    · exact WP.pure ⟨h2, rfl, Or.inr ⟨h1, h3, h4⟩⟩
  | freeSized p n =>
    by_cases h0 : p = 0
    · subst h0; exact WP.pure ⟨htl, rfl, Or.inl ⟨rfl, rfl, rfl⟩⟩
    refine WP.andThen ((hFreeSized_wp hro hS hi (fun _ => hr.arg p) ?_).mono fun r tl1 w1 => ?_)
    · exact ⟨fun e _ _ _ => Or.inr (Or.inr (Or.inl ⟨h0, Or.inl e⟩)), fun _ e _ _ _ => Or.inr (Or.inr (Or.inl ⟨h0, Or.inr e⟩)),
        fun a c i k m _ e h1 h2 _ _ _ => Or.inr (Or.inr (Or.inr (Or.inl ⟨a, c, i, k, h1, by cases e; exact h2⟩))),
        fun s g m _ e h1 h2 _ _ _ => Or.inr (Or.inr (Or.inr (Or.inr ⟨s, g, h1, by cases e; exact h2⟩)))⟩
    · rintro (⟨h1, _⟩ | ⟨h1, h2, h3⟩)
      · exact absurd h1 h0
      · exact WP.pure ⟨h2, rfl, Or.inr ⟨h1, h3⟩⟩
  | usableSize p =>
    by_cases h0 : p = 0
    · subst h0; exact WP.pure ⟨htl, 0, rfl, rfl, rfl, Or.inl ⟨rfl, rfl⟩⟩
    refine WP.andThen ((hUsableSize_wp (m := .seq) hro hi (fun _ => hr.arg p) (BadArg.ffree h0 fun h _ _ _ => Or.inr (Or.inr h))).mono fun r tl1 w1 => ?_)
    rintro ⟨h1, h2, h3, ⟨h4, _⟩ | ⟨h4, h5, h6, h7, h8⟩⟩
    · exact absurd h4 h0
    · exact WP.pure ⟨h5, r, rfl, h1, h3 rfl, Or.inr ⟨h0, h6, h7, h8⟩⟩
  | objectSize p =>
    by_cases h0 : p = 0
    · subst h0; exact WP.pure ⟨htl, 0, rfl, rfl, rfl, Or.inr (Or.inl ⟨rfl, rfl⟩)⟩
    refine WP.andThen ((hObjectSize_wp hro hi (fun _ _ hs h => Or.inr (Or.inr ⟨h0, hs, Or.inl h⟩)) (fun h1 h2 b ch => ?_)).mono fun r tl1 w1 => ?_)
    · cases b with
      | fatal m => exact Or.inr (Or.inr ⟨h0, h1, Or.inr h2⟩)
      | segv => exact Or.inl ⟨p, rfl, h1, h2⟩
      | ub s => exact Or.inl ⟨p, rfl, h1, h2⟩
      | hang => exact ⟨p, rfl, h1, h2⟩
    · rintro ⟨h1, h2, h3, h4⟩
      exact WP.pure ⟨h3.resolve_left h0, r, rfl, h1, h2, h4⟩
  | objectSizeFast p =>
    show WP .seq ro t _ (hObjectSizeFast ro p >>= fun r => pure (Ret.num r)) _ tl w
    unfold hObjectSizeFast
    by_cases h0 : p = 0
    · rw [if_pos h0]; exact WP.pure ⟨htl, rfl, rfl, by rw [if_pos h0]⟩
    · rw [if_neg h0]
      by_cases h1 : ro.inSlab p = true
      · rw [if_pos h1]; exact WP.pure ⟨htl, rfl, rfl, by rw [if_neg h0, if_pos h1]⟩
      · rw [if_neg h1]; exact WP.pure ⟨htl, rfl, rfl, by rw [if_neg h0, if_neg h1]⟩
  | trim =>
    refine WP.andThen ((hTrim_wp hro hS hi).mono fun r tl1 w1 => ?_)
    rintro ⟨h1, h2, h3⟩
    exact WP.pure ⟨h1, r, rfl, h2, h3 rfl⟩
  | mallinfo =>
    refine WP.andThen ((hMallinfo_wp (m := .seq) hi (fun _ => hr.stat)).mono fun r tl1 w1 => ?_)
    rintro ⟨h1, h2, h3, h4, h5⟩
    refine WP.pure ⟨?_, r, rfl, h2, h5 rfl⟩
    cases hs : ro.g.stats with
    | true => exact h3 hs
    | false => rw [h4 hs]; exact htl

end HM
