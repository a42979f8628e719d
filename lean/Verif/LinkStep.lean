import Verif.LinkCall
/-
Every step of the sequential machine keeps the link between the state and the history.
-/
namespace HM

variable {ro : Ro} {t : Nat}

/-! ### What an event adds to the counters -/

/-- The block released by an event: freed, or moved away by `realloc`. -/
def Ev.released : Ev → Option Nat
  | .call _ (.free p) _ => if p = 0 then none else some p
  | .call _ (.freeSized p _) _ => if p = 0 then none else some p
  | .call _ (.realloc p _) r =>
      match r.block with
      | some q => if p = 0 ∨ q = p then none else some p
      | none => none
  | _ => none

/-- The event is a deallocation in class `c` of arena `a`. -/
def evFrees (ro : Ro) (e : Ev) (a c : Nat) : Nat :=
  match e.released with
  | some p => if (a, c) = ro.sizeClassOf p then 1 else 0
  | none => 0

/-- The block an event may put into the region quarantine: freed, or given to `realloc`. -/
def Ev.touched : Ev → Option Nat
  | .call _ (.free p) _ => if p = 0 then none else some p
  | .call _ (.freeSized p _) _ => if p = 0 then none else some p
  | .call _ (.realloc p _) _ => if p = 0 then none else some p
  | _ => none

/-- The event may put a region into the quarantine. -/
def evPush (ro : Ro) (e : Ev) : Nat :=
  match e.touched with
  | some p => if ro.inSlab p = true then 0 else 1
  | none => 0

/-- The number of bytes that the event allocates without counting them. -/
def evUntr (ro : Ro) (e : Ev) : Nat :=
  match e with
  | .call _ c _ =>
      match c.request with
      | some i => if (∃ al, i.align = some al ∧ PAGE < al) ∧ ro.g.stats = true then getLargeSizeClass ro.g (adjustSizeForCanary ro.g i.size) else 0
      | none => 0
  | _ => 0

/-! ### Allocation and deallocation -/

section
variable {L : Nat → Option Info} {w w' : World}

theorem Linked.idle (hro : RoOk ro) (l : Linked ro L w) (all : ∀ p, w.G.blk p = .nobody ∨ w.G.blk p = .thr t) (g : Guar ro t w w')
    (i : Idle .seq ro t w w') : Linked ro L w' :=
  l.next hro all g i (fun _ _ => rfl) (fun _ h => h.elim)

theorem Linked.alloc (hro : RoOk ro) (l : Linked ro L w) (all : ∀ p, w.G.blk p = .nobody ∨ w.G.blk p = .thr t) (g : Guar ro t w w')
    {p : Nat} {i : Info} {pu : Nat × Nat} (a : At .seq ro t (· = p) noFree pu w w') (hm : Mine t p w') (hs : Sized ro w' p i) :
    Linked ro (fun x => if x = p then some i else L x) w' :=
  l.next hro all g a (fun q (hq : ¬ q = p) => if_neg hq) (fun q (hq : q = p) => Or.inr ⟨i, if_pos hq, hq ▸ hm, hq ▸ hs⟩)

theorem Linked.free (hro : RoOk ro) (l : Linked ro L w) (all : ∀ p, w.G.blk p = .nobody ∨ w.G.blk p = .thr t) (g : Guar ro t w w')
    {p : Nat} {fr : Nat → Nat → Nat} {pu : Nat × Nat} (a : At .seq ro t (· = p) fr pu w w') (hb : w'.G.blk p ≠ .thr t) :
    Linked ro (fun x => if x = p then none else L x) w' :=
  l.next hro all g a (fun q (hq : ¬ q = p) => if_neg hq) (fun q (hq : q = p) => Or.inl ⟨if_pos hq, hq ▸ hb⟩)

theorem mine_ne_zero (hro : RoOk ro) (hi : GInv ro w) {p : Nat} (h : Mine t p w) : p ≠ 0 := by
  rintro rfl
  have := blk_zero hro hi
  rw [h.blk] at this; exact absurd this (by simp)

theorem retPtr_block (hro : RoOk ro) (hi : GInv ro w) {p : Nat} (h : Mine t p w) : (retPtr (some p)).block = some p :=
  if_neg (mine_ne_zero hro hi h)

theorem GotZero.sized {m : Mode} {a n p : Nat} (hn : n < W64) (g : GotZero m ro t a n w p w') : Sized ro w' p ⟨n, none⟩ := by
  refine ⟨hn, ?_⟩
  rcases g.kind with ⟨h, i, k, h1, _⟩ | ⟨h, gd, h1⟩
  · exact Or.inl ⟨h, a, i, k, h1⟩
  · exact Or.inr ⟨h, gd, h1⟩

theorem GotAl.sized {m : Mode} (hro : RoOk ro) {a al n p : Nat} (hn : n < W64) (hal : ∃ k, al = 2 ^ k) (g : GotAl m ro t a al (adjustSizeForCanary ro.g n) w p w') :
    Sized ro w' p ⟨n, some al⟩ := by
  refine ⟨hn, hal, g.1, ?_⟩
  rcases g.2 with ⟨_, s, h1, h2, h3, h4, h5⟩ | ⟨h1, h2⟩
  · exact Or.inl ⟨s, h1, h2, h3, h4, h5.kind⟩
  · obtain ⟨gd, h3⟩ := h2.has
    by_cases h : ro.g.maxSlab < adjustSizeForCanary ro.g n
    · exact Or.inl ⟨_, Nat.le_refl _, adjust_lt hn, fun _ => rfl, id, Or.inr ⟨h, gd, h3⟩⟩
    · exact Or.inr ⟨h1, by show adjustSizeForCanary ro.g n ≤ _; omega, _, gd, h3, (getLargeSizeClass_ok ro.g (adjust_lt hn) h2.pos).1⟩

theorem GotAl.blk {m : Mode} (hro : RoOk ro) {a al s p : Nat} (g : GotAl m ro t a al s w p w') :
    Mine t p w' ∧ w.G.blk p ≠ .thr t ∧ At m ro t (· = p) noFree (0, if PAGE < al ∧ ro.g.stats = true then getLargeSizeClass ro.g s else 0) w w' := by
  rcases g.2 with ⟨h0, s', h1, h2, h3, h4, h5⟩ | ⟨h1, h2⟩
  · have nb := h5.newBlk hro h2
    refine ⟨nb.mine, nb.old, ?_⟩
    rw [if_neg (by omega)]
    exact nb.at_
  · refine ⟨⟨h2.blk, h2.eff⟩, h2.old, ?_⟩
    have := h2.at_
    cases hs : ro.g.stats with
    | true => rw [hs] at this; rw [if_pos ⟨h1, rfl⟩]; exact this
    | false => rw [hs] at this; rw [if_neg (by simp)]; exact this

/-- The size of a block after `realloc`. -/
theorem Realloced.sized {m : Mode} (hro : RoOk ro) (hi : GInv ro w) {p n q size N : Nat} {i : Info} (hn : n < W64)
    (hsz : size = adjustSizeForCanary ro.g n ∧ size ≤ ro.g.maxSlab ∨
        ro.g.maxSlab < adjustSizeForCanary ro.g n ∧ size = getLargeSizeClass ro.g (adjustSizeForCanary ro.g n) ∧ ro.g.maxSlab < size ∧ getLargeSizeClass ro.g size = size)
    (hs : Sized ro w p i) (h : Realloced m ro t p size N w q w') : Sized ro w' q ⟨n, if q = p then i.align else none⟩ := by
  have hk0 : ∀ s, size = s → SizeKind ro w' q size → SizeKind ro w' q (adjustSizeForCanary ro.g n) := by
    rintro s rfl k
    rcases hsz with ⟨e, _⟩ | ⟨e1, e2, e3, e4⟩
    · rw [← e]; exact k
    · rcases k with ⟨k1, _⟩ | ⟨_, gd, k2⟩
      · omega
      · exact Or.inr ⟨e1, gd, by rw [← e2, ← e4]; exact k2⟩
  have hadj : adjustSizeForCanary ro.g n ≤ size := by
    rcases hsz with ⟨e, _⟩ | ⟨e1, e2, e3, e4⟩
    · omega
    · rw [e2]; exact (getLargeSizeClass_ok ro.g (adjust_lt hn) (by omega)).1
  by_cases hqp : q = p
  · subst hqp
    rw [if_pos rfl]
    unfold Sized at hs ⊢
    refine ⟨hn, ?_⟩
    obtain ⟨hlt, hs⟩ := hs
    cases e : i.align with
    | none =>
      rw [e] at hs
      simp only at hs ⊢
      rcases h.kind with k | ⟨_, gd, k0, k⟩
      · exact hk0 _ rfl k
      · rcases hs with ⟨_, a1, i1, j1, k1⟩ | ⟨k1, gd', k2⟩
        · exact (not_small_has hro hi k1 k0).elim
        · have e1 := hi.has_unique k0 k2 rfl
          simp only [RegionMeta.mk.injEq, true_and] at e1
          rcases hsz with ⟨e2, e3⟩ | ⟨e2, e3, e4, e5⟩
          · have hz2 : getLargeSizeClass ro.g (adjustSizeForCanary ro.g i.size) ≠ 0 := by
              have := (hi.reg _ k2).size; simp only at this; omega
            have := (getLargeSizeClass_ok ro.g (adjust_lt hlt) hz2).1
            omega
          · exact Or.inr ⟨e2, gd, by rw [← e3]; exact k⟩
    | some al =>
      rw [e] at hs
      simp only at hs ⊢
      obtain ⟨s1, s2, s3⟩ := hs
      refine ⟨s1, s2, ?_⟩
      rcases h.kind with k | ⟨_, gd, k0, k⟩
      · exact Or.inl ⟨_, Nat.le_refl _, adjust_lt hn, fun _ => rfl, id, hk0 _ rfl k⟩
      · rcases hsz with ⟨e2, e3⟩ | ⟨e2, e3, e4, e5⟩
        · right
          refine ⟨?_, by omega, size, gd, k, hadj⟩
          rcases s3 with ⟨s, t1, t2, t3, t4, ⟨_, a1, i1, j1, k1⟩ | ⟨k1, gd', k2⟩⟩ | ⟨s, _⟩
          · exact (not_small_has hro hi k1 k0).elim
          · have e1 := hi.has_unique k0 k2 rfl
            simp only [RegionMeta.mk.injEq, true_and] at e1
            have hz2 : getLargeSizeClass ro.g s ≠ 0 := by
              have := (hi.reg _ k2).size; simp only at this; omega
            have := (getLargeSizeClass_ok ro.g t2 hz2).1
            omega
          · exact s
        · exact Or.inl ⟨_, Nat.le_refl _, adjust_lt hn, fun _ => rfl, id, Or.inr ⟨e2, gd, by rw [← e3]; exact k⟩⟩
  · rw [if_neg hqp]
    refine ⟨hn, ?_⟩
    rcases h.kind with k | ⟨k, _⟩
    · exact hk0 _ rfl k
    · exact absurd k hqp

/-- The outcome of a call: the invariant holds for the new live blocks, all old blocks except for the argument are kept,
and the counters grew as described. -/
def StepOk (ro : Ro) (t : Nat) (L : Nat → Option Info) (e : Ev) (w w' : World) : Prop :=
  Linked ro (liveStep L e) w' ∧ ∃ A, (∀ q, A q → (w.G.blk q ≠ .thr t ∧ w'.G.blk q = .thr t) ∨ (e.touched = some q ∧ w.G.blk q = .thr t)) ∧ At .seq ro t A (evFrees ro e) (evPush ro e, evUntr ro e) w w'

theorem stepOk_idle (hro : RoOk ro) (l : Linked ro L w) (all : ∀ p, w.G.blk p = .nobody ∨ w.G.blk p = .thr t) (g : Guar ro t w w')
    {e : Ev} (h : liveStep L e = L) (i : Idle .seq ro t w w') : StepOk ro t L e w w' :=
  ⟨by rw [h]; exact l.idle hro all g i, noBlock, fun _ h => h.elim, i.mono (fun _ h => h) (fun _ _ => Nat.zero_le _) ⟨Nat.zero_le _, Nat.zero_le _⟩⟩

theorem AlSimple.step (hro : RoOk ro) (l : Linked ro L w) (all : ∀ p, w.G.blk p = .nobody ∨ w.G.blk p = .thr t) (g : Guar ro t w w')
    {a al n : Nat} {o : Option Nat} {tl' : Tl} {c : Call} (hn : n < W64) (hc : c.request = some ⟨n, some al⟩)
    (hl : ∀ r, liveStep L (.call t c r) = match c.request, r.block with
      | some i, some q => fun x => if x = q then some i else L x
      | _, _ => L)
    (h : AlSimple .seq ro t a al (adjustSizeForCanary ro.g n) w o tl' w') : StepOk ro t L (.call t c (retPtr o)) w w' := by
  obtain ⟨_, h⟩ := h
  cases o with
  | none =>
    refine stepOk_idle hro l all g ?_ h.1
    rw [hl, hc]; rfl
  | some p =>
    obtain ⟨h1, h2⟩ := h
    obtain ⟨m1, m2, m3⟩ := h2.blk hro
    refine ⟨?_, _, fun q (hq : q = p) => Or.inl (hq ▸ ⟨m2, m1.blk⟩), m3.mono (fun _ h => h) (fun _ _ => Nat.zero_le _) ⟨Nat.zero_le _, ?_⟩⟩
    · rw [hl, hc, retPtr_block hro g.inv m1]
      exact l.alloc hro all g m3 m1 (h2.sized hro hn h1)
    · unfold evUntr
      simp only [hc]
      by_cases hh : PAGE < al ∧ ro.g.stats = true
      · rw [if_pos hh, if_pos ⟨⟨al, rfl, hh.1⟩, hh.2⟩]
      · rw [if_neg hh]; exact Nat.zero_le _

theorem freed_at {m : Mode} {p : Nat} {sm lg : Option Nat} (hro : RoOk ro) (h : Freed m ro t p sm lg w w') :
    Mine t p w ∧ w'.G.blk p ≠ .thr t ∧
    At m ro t (· = p) (fun a c => if (a, c) = ro.sizeClassOf p then 1 else 0) (if ro.inSlab p = true then 0 else 1, 0) w w' := by
  rcases h with ⟨h1, h2⟩ | ⟨h1, h2⟩
  · refine ⟨h2.mine, h2.blk, ?_⟩; rw [h1]; exact h2.at_
  · refine ⟨h2.mine, h2.blk, ?_⟩; rw [h1]; exact h2.at_.mono (fun _ h => h) (fun _ _ => Nat.zero_le _) (le_refl _)

/-- The calls that do not allocate. -/
theorem callPost_step (hro : RoOk ro) {a : Nat} {c : Call} {tl tl' : Tl} {r : Ret} (l : Linked ro L w)
    (all : ∀ p, w.G.blk p = .nobody ∨ w.G.blk p = .thr t) (g : Guar ro t w w') (hok : c.Ok)
    (h : CallPost ro t a c w tl r tl' w') : StepOk ro t L (.call t c r) w w' := by
  have idle0 : Idle .seq ro t w w := At.refl l.inv
  have le0 : ∀ n : Nat, ((0 : Nat), (0 : Nat)) ≤ (0, n) := fun n => ⟨Nat.le_refl _, Nat.zero_le _⟩
  cases c with
  | malloc n =>
    obtain ⟨o, rfl, h⟩ := h
    cases o with
    | none => exact stepOk_idle hro l all g rfl h.1
    | some p =>
      have nb := Got.newBlk hro (adjust_lt hok) h
      refine ⟨?_, _, fun x (hx : x = _) => Or.inl (hx ▸ ⟨nb.old, nb.mine.blk⟩), nb.at_.mono (fun _ h => h) (fun _ _ => Nat.zero_le _) ⟨Nat.zero_le _, Nat.zero_le _⟩⟩
      show Linked ro (match some (⟨n, none⟩ : Info), (retPtr (some p)).block with | some i, some q => _ | _, _ => _) w'
      rw [retPtr_block hro g.inv nb.mine]
      exact l.alloc hro all g nb.at_ nb.mine ⟨hok, Got.kind h⟩
  | calloc n k =>
    obtain ⟨o, rfl, h⟩ := h
    cases o with
    | none => exact stepOk_idle hro l all g rfl (h.elim (fun h => h.2.2) fun h => h.2.1)
    | some p =>
      have nb := h.2.got
      refine ⟨?_, _, fun x (hx : x = _) => Or.inl (hx ▸ ⟨nb.old, nb.mine.blk⟩), nb.at_.mono (fun _ h => h) (fun _ _ => Nat.zero_le _) ⟨Nat.zero_le _, Nat.zero_le _⟩⟩
      show Linked ro (match some (⟨n * k, none⟩ : Info), (retPtr (some p)).block with | some i, some q => _ | _, _ => _) w'
      rw [retPtr_block hro g.inv nb.mine]
      exact l.alloc hro all g nb.at_ nb.mine (h.2.sized h.1)
  | posixMemalign al n =>
    obtain ⟨o, rfl, h⟩ := h
    cases o with
    | error e => exact stepOk_idle hro l all g rfl h.1
    | ok p =>
      obtain ⟨h1, h2, h3⟩ := h
      obtain ⟨m1, m2, m3⟩ := h3.blk hro
      refine ⟨l.alloc hro all g m3 m1 (h3.sized hro hok.2 h1), _, fun q (hq : q = p) => Or.inl (hq ▸ ⟨m2, m1.blk⟩), m3.mono (fun _ h => h) (fun _ _ => Nat.zero_le _) ⟨Nat.zero_le _, ?_⟩⟩
      show _ ≤ if _ then _ else _
      by_cases hh : PAGE < al ∧ ro.g.stats = true
      · rw [if_pos hh, if_pos ⟨⟨al, rfl, hh.1⟩, hh.2⟩]
      · rw [if_neg hh]; exact Nat.zero_le _
  | alignedAlloc al n =>
    obtain ⟨o, rfl, h⟩ := h
    exact AlSimple.step hro l all g hok.2 rfl (fun _ => rfl) h
  | valloc n =>
    obtain ⟨o, rfl, h⟩ := h
    exact AlSimple.step hro l all g hok rfl (fun _ => rfl) h
  | pvalloc n =>
    obtain ⟨o, rfl, ⟨h1, rfl, _, h2⟩ | ⟨h1, h2⟩⟩ := h
    · exact stepOk_idle hro l all g rfl h2
    · have e : (n + 4095) / 4096 * 4096 = pageAlign n := by
        have hn : n < W64 := hok
        rw [pageAlign_eq] at *
        omega
      refine AlSimple.step hro l all g (n := pageAlign n) (by rw [pageAlign_eq]; omega) ?_ (fun _ => rfl) h2
      show some (⟨(n + 4095) / 4096 * 4096, some 4096⟩ : Info) = _
      rw [e]
  | free p =>
    obtain ⟨rfl, ⟨rfl, rfl, rfl⟩ | ⟨h1, _, h2⟩⟩ := h
    · refine ⟨?_, noBlock, fun _ h => h.elim, idle0.mono (fun _ h => h) (fun _ _ => Nat.zero_le _) ⟨Nat.zero_le _, Nat.zero_le _⟩⟩
      exact l.next hro all g (idle0.mono (A' := (· = 0)) (fun _ h => h.elim) (fun _ _ => Nat.le_refl _) (le_refl _))
        (fun q (hq : ¬ q = 0) => if_neg hq) (fun q (hq : q = 0) => Or.inl ⟨if_pos hq, by rw [hq, blk_zero hro l.inv]; simp⟩)
    · obtain ⟨m1, m2, m3⟩ := freed_at hro h2
      refine ⟨l.free hro all g m3 m2, _, fun q (hq : q = p) => Or.inr ⟨by simp [Ev.touched, h1, hq], hq ▸ m1.blk⟩, m3.mono (fun _ h => h) (fun x y => ?_) ?_⟩
      · simp [evFrees, Ev.released, h1]
      · simp [evPush, Ev.touched, h1, evUntr, Call.request]
  | freeSized p n =>
    obtain ⟨rfl, ⟨rfl, rfl, rfl⟩ | ⟨h1, h2⟩⟩ := h
    · refine ⟨?_, noBlock, fun _ h => h.elim, idle0.mono (fun _ h => h) (fun _ _ => Nat.zero_le _) ⟨Nat.zero_le _, Nat.zero_le _⟩⟩
      exact l.next hro all g (idle0.mono (A' := (· = 0)) (fun _ h => h.elim) (fun _ _ => Nat.le_refl _) (le_refl _))
        (fun q (hq : ¬ q = 0) => if_neg hq) (fun q (hq : q = 0) => Or.inl ⟨if_pos hq, by rw [hq, blk_zero hro l.inv]; simp⟩)
    · obtain ⟨m1, m2, m3⟩ := freed_at hro h2
      refine ⟨l.free hro all g m3 m2, _, fun q (hq : q = p) => Or.inr ⟨by simp [Ev.touched, h1, hq], hq ▸ m1.blk⟩, m3.mono (fun _ h => h) (fun x y => ?_) ?_⟩
      · simp [evFrees, Ev.released, h1]
      · simp [evPush, Ev.touched, h1, evUntr, Call.request]
  | usableSize p =>
    obtain ⟨u, rfl, _, rfl, _⟩ := h
    exact stepOk_idle hro l all g rfl idle0
  | objectSize p =>
    obtain ⟨u, rfl, _, rfl, _⟩ := h
    exact stepOk_idle hro l all g rfl idle0
  | objectSizeFast p =>
    obtain ⟨_, rfl, rfl⟩ := h
    exact stepOk_idle hro l all g rfl idle0
  | trim =>
    obtain ⟨b, rfl, h, _⟩ := h
    exact stepOk_idle hro l all g rfl h
  | mallinfo =>
    obtain ⟨b, rfl, _, rfl, _⟩ := h
    exact stepOk_idle hro l all g rfl idle0
  | realloc p n =>
    obtain ⟨o, rfl, h⟩ := h
    cases o with
    | none => exact stepOk_idle hro l all g rfl h.1
    | some q =>
      rcases h with ⟨rfl, h⟩ | ⟨h0, size, hsz, hpay, h⟩
      · have nb := Got.newBlk hro (adjust_lt hok.2) h
        refine ⟨?_, _, fun x (hx : x = _) => Or.inl (hx ▸ ⟨nb.old, nb.mine.blk⟩), nb.at_.mono (fun _ h => h) (fun _ _ => Nat.zero_le _) ⟨Nat.zero_le _, Nat.zero_le _⟩⟩
        show Linked ro (match (retPtr (some q)).block with | none => _ | some _ => _) w'
        rw [retPtr_block hro g.inv nb.mine]
        show Linked ro (if (0 : Nat) = 0 then _ else _) w'
        rw [if_pos rfl]
        exact l.alloc hro all g nb.at_ nb.mine ⟨hok.2, Got.kind h⟩
      · rcases h with h | ⟨h1, h2, rfl, h3⟩
        · have hz := mine_ne_zero hro g.inv h.mine
          have hb : (retPtr (some q)).block = some q := if_neg hz
          have hlive : (L p).isSome = true := (l.blk p).mp (by rw [h.arg.blk]; simp)
          obtain ⟨i, hi⟩ := Option.isSome_iff_exists.mp hlive
          have hls : liveStep L (.call t (.realloc p n) (retPtr (some q))) =
              fun x => if x = q then some ⟨n, if q = p then i.align else none⟩ else if x = p then none else L x := by
            unfold liveStep
            simp only [hb, if_neg h0, hi]
          refine ⟨?_, _, fun x hx => ?_, h.at_.mono (fun _ h => h) (fun x y => ?_) ?_⟩
          rotate_left
          · by_cases hxp : x = p
            · exact Or.inr ⟨by simp [Ev.touched, h0, hxp], hxp ▸ h.arg.blk⟩
            · have hxq : x = q := hx.resolve_left hxp
              exact Or.inl (hxq ▸ ⟨(h.moved fun e => hxp (hxq.trans e)).1, h.mine.blk⟩)
          rotate_left
          rotate_left
          · rw [hls]
            refine l.next hro all g h.at_ (fun x hx => ?_) (fun x hx => ?_)
            · rw [not_or] at hx; rw [if_neg hx.2, if_neg hx.1]
            · by_cases hxq : x = q
              · subst hxq
                right
                exact ⟨_, if_pos rfl, h.mine, Realloced.sized hro l.inv hok.2 hsz (l.sized p i hi) h⟩
              · left
                have hxp : x = p := hx.resolve_right hxq
                subst hxp
                exact ⟨by rw [if_neg hxq, if_pos rfl], (h.moved fun e => hxq e.symm).2⟩
          · by_cases hqp : q = p <;> simp [evFrees, Ev.released, h0, hb, hqp]
          · simp [evPush, Ev.touched, h0, evUntr, Call.request]
        · have hn : L q = none := (l.nobody).mp h1
          refine stepOk_idle hro l all g ?_ h3
          unfold liveStep
          have hb : (retPtr (some q)).block = some q := if_neg h0
          simp only [hb, if_neg h0, hn]

end

end HM
