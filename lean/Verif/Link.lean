import Verif.Seq
import Verif.InitSpec
import Verif.SpecRealloc
/-
Every reachable state of the sequential machine satisfies the global invariant, and the blocks the allocator has handed out
are the live blocks of the history.
-/
namespace HM

variable {ro : Ro} {t : Nat}

/-! ### Running a program -/

/-- What a specification says about a run. -/
theorem WP.run {α : Type} {F : Bad → Choice → World → Prop} {P : Prog α} {Q : α → Tl → World → Prop} {tl : Tl} {w : World} {chs : Nat → Choice}
    (h : WP .seq ro t F P Q tl w) (hi : GInv ro w) (hf : ∀ n, Fair .seq w.G.env (chs n)) :
    match P.run chs w.σ tl with
    | .ok (σ', tl', a) => ∃ G', Guar ro t w ⟨σ', G'⟩ ∧ Q a tl' ⟨σ', G'⟩
    | .fatal m => ∃ n w1, Guar ro t w w1 ∧ F (.fatal m) (chs n) w1
    | .segv => ∃ n w1, Guar ro t w w1 ∧ F .segv (chs n) w1
    | .ub s => ∃ n w1, Guar ro t w w1 ∧ F (.ub s) (chs n) w1
    | .hang => ∃ n w1, Guar ro t w w1 ∧ F .hang (chs n) w1 := by
  induction P generalizing tl w chs with
  | ret a => exact ⟨w.G, Trans.refl hi, h⟩
  | act f k ih =>
    have h := h.2 (chs 0) (hf 0)
    unfold Prog.run
    revert h
    cases f (chs 0) w.σ tl with
    | ok r =>
      obtain ⟨σ', tl', b⟩ := r
      rintro ⟨G', hg, hk⟩
      have := ih b (w := ⟨σ', G'⟩) (chs := fun n => chs (n + 1)) (hk _ rfl) hg.inv
        (fun n => by show Fair .seq G'.env _; rw [show G'.env = w.G.env from hg.delay.env]; exact hf (n + 1))
      simp only
      revert this
      cases (k b).run (fun n => chs (n + 1)) σ' tl' with
      | ok r =>
        obtain ⟨σ2, tl2, a⟩ := r
        rintro ⟨G2, h1, h2⟩; exact ⟨G2, hg.trans h1, h2⟩
      | fatal m => rintro ⟨n, w1, h1, h2⟩; exact ⟨n + 1, w1, hg.trans h1, h2⟩
      | segv => rintro ⟨n, w1, h1, h2⟩; exact ⟨n + 1, w1, hg.trans h1, h2⟩
      | ub s => rintro ⟨n, w1, h1, h2⟩; exact ⟨n + 1, w1, hg.trans h1, h2⟩
      | hang => rintro ⟨n, w1, h1, h2⟩; exact ⟨n + 1, w1, hg.trans h1, h2⟩
    | fatal m => exact fun h => ⟨0, w, Trans.refl hi, h⟩
    | segv => exact fun h => ⟨0, w, Trans.refl hi, h⟩
    | ub s => exact fun h => ⟨0, w, Trans.refl hi, h⟩
    | hang => exact fun h => ⟨0, w, Trans.refl hi, h⟩

/-! ### The blocks of the allocator and the live blocks of the history -/

/-- All blocks are handed to thread `t` for the duration of its call. -/
def World.lend (w : World) (t : Nat) : World := ⟨w.σ, { w.G with blk := fun p => if w.G.blk p = .nobody then .nobody else .thr t }⟩

theorem lend_blk (w : World) (p : Nat) : (w.lend t).G.blk p = .nobody ↔ w.G.blk p = .nobody := by
  show (if _ then _ else _) = _ ↔ _
  by_cases h : w.G.blk p = .nobody
  · rw [if_pos h]; simp [h]
  · rw [if_neg h]; simp [h]

theorem lend_cases (w : World) (t p : Nat) : (w.lend t).G.blk p = .nobody ∨ (w.lend t).G.blk p = .thr t := by
  show (if _ then _ else _) = _ ∨ (if _ then _ else _) = _
  by_cases h : w.G.blk p = .nobody
  · rw [if_pos h]; exact Or.inl rfl
  · rw [if_neg h]; exact Or.inr rfl

theorem lend_inv {w : World} (h : GInv ro w) (he : ∀ p, w.G.eff p = none) : GInv ro (w.lend t) :=
  ⟨h.cls, h.clsVm, h.gaps, h.rt, h.reg, h.slabOwn, h.regOwn, h.regRw, h.regLo, h.regHi, h.qrOwn, h.qqOwn, h.qrOk, h.qqOk, h.qi, h.mapped,
   fun p => (not_congr (lend_blk w p)).trans (h.blk p), fun p n e => absurd ((he p).symm.trans e) (by simp), h.cache, h.qprot⟩

theorem lend_delay (w : World) : Delay ro w (w.lend t) :=
  ⟨fun _ _ => Nat.le_refl _, fun _ _ _ _ => Nat.le_refl _, fun _ _ _ _ _ _ => Nat.le_add_right _ _, Nat.le_refl _, fun _ => Nat.le_add_right _ _, rfl⟩

/-- Block `p` was allocated as described by `i`. -/
def Sized (ro : Ro) (w : World) (p : Nat) (i : Info) : Prop :=
  i.size < W64 ∧
  match i.align with
  | none => SizeKind ro w p (adjustSizeForCanary ro.g i.size)
  | some al => (∃ k, al = 2 ^ k) ∧ p % al = 0 ∧
      ((∃ s, adjustSizeForCanary ro.g i.size ≤ s ∧ s < W64 ∧ (ro.g.maxSlab < adjustSizeForCanary ro.g i.size → s = adjustSizeForCanary ro.g i.size) ∧
          (adjustSizeForCanary ro.g i.size ≤ ro.g.maxSlab → s ≤ ro.g.maxSlab) ∧ SizeKind ro w p s) ∨
        (PAGE < al ∧ adjustSizeForCanary ro.g i.size ≤ ro.g.maxSlab ∧ ∃ s g, w.σ.rt.Has ⟨p, s, g⟩ ∧ adjustSizeForCanary ro.g i.size ≤ s))

theorem Sized.keep {w w' : World} {p : Nat} {i : Info} (h : Sized ro w p i) (k : KeepB ro w w' p) : Sized ro w' p i := by
  unfold Sized at *
  refine ⟨h.1, ?_⟩
  replace h := h.2
  cases e : i.align with
  | none => rw [e] at h; exact SizeKind.keep h k
  | some al =>
    rw [e] at h
    obtain ⟨h1, h2, h3⟩ := h
    exact ⟨h1, h2, h3.imp (fun ⟨s, q1, q2, q3, q4, q5⟩ => ⟨s, q1, q2, q3, q4, q5.keep k⟩)
      (fun ⟨q1, q2, s, g, q3, q4⟩ => ⟨q1, q2, s, g, (k.large _ _ q3).1, q4⟩)⟩

/-- The state belongs to a history with live blocks `L`. -/
structure Linked (ro : Ro) (L : Nat → Option Info) (w : World) : Prop where
  inv : GInv ro w
  stat : StatOk ro w
  blk : ∀ p, w.G.blk p ≠ .nobody ↔ (L p).isSome = true
  eff : ∀ p, w.G.eff p = none
  sized : ∀ p i, L p = some i → Sized ro w p i

theorem Linked.lend {L : Nat → Option Info} {w : World} (h : Linked ro L w) (t : Nat) : Linked ro L (w.lend t) :=
  ⟨lend_inv h.inv h.eff, ⟨h.stat.small, h.stat.large⟩, fun p => (not_congr (lend_blk w p)).trans (h.blk p), h.eff,
   fun p i hp => (h.sized p i hp).keep (w' := ⟨w.σ, w.G⟩) (KeepB.refl w p)⟩

theorem Linked.mine {L : Nat → Option Info} {w : World} (h : Linked ro L w) {p : Nat} (hp : (L p).isSome = true) : Mine t p (w.lend t) :=
  ⟨(lend_cases w t p).resolve_left (((h.lend t).blk p).mpr hp), h.eff p⟩

theorem Linked.freeArg {L : Nat → Option Info} {w : World} (h : Linked ro L w) (p : Nat) : FreeArg .seq t p (w.lend t) := by
  by_cases hp : (L p).isSome = true
  · exact Or.inl (h.mine hp)
  · exact Or.inr ⟨rfl, by_contra fun hn => hp (((h.lend t).blk p).mp hn)⟩

theorem Linked.nobody {L : Nat → Option Info} {w : World} (h : Linked ro L w) {p : Nat} : w.G.blk p = .nobody ↔ L p = none := by
  have := h.blk p
  rw [← not_iff_not, ← ne_eq, this]
  cases L p <;> simp

/-- Address 0 is never a block. -/
theorem blk_zero (hro : RoOk ro) {w : World} (hi : GInv ro w) : w.G.blk 0 = .nobody := by
  by_contra hn
  rcases (hi.blk 0).mp hn with ⟨a, c, i, k, h⟩ | ⟨s, g, h⟩
  · have h1 := (h.own hro hi (x := 0) (by have := (classGeo ro.g h.2.1).size_ge; unfold inRange; omega))
    have h2 := (hi.slabOwn _).mp h1
    have := hro.lo
    unfold inPages at h2; omega
  · exact h.1 rfl

/-- What the call did, in terms of blocks. -/
theorem Linked.next {L L' : Nat → Option Info} {w w' : World} {A : Nat → Prop} {fr : Nat → Nat → Nat} {pu : Nat × Nat}
    (hro : RoOk ro) (l : Linked ro L w) (all : ∀ p, w.G.blk p = .nobody ∨ w.G.blk p = .thr t)
    (g : Guar ro t w w') (a : At .seq ro t A fr pu w w') (hL : ∀ q, ¬ A q → L' q = L q)
    (hA : ∀ q, A q → (L' q = none ∧ w'.G.blk q ≠ .thr t) ∨ ∃ i, L' q = some i ∧ Mine t q w' ∧ Sized ro w' q i) : Linked ro L' w' := by
  have h1 : ∀ q, w'.G.blk q = .nobody ∨ w'.G.blk q = .thr t := by
    intro q
    by_contra hn
    rw [not_or] at hn
    have := ((g.same (w'.G.blk q) hn.1 hn.2).blk q).mp rfl
    rcases all q with e | e <;> rw [e] at this
    · exact hn.1 this.symm
    · exact hn.2 this.symm
  have h2 : ∀ q, w'.G.blk q ≠ .nobody ↔ (L' q).isSome = true := by
    intro q
    by_cases hq : A q
    · rcases hA q hq with ⟨e, h⟩ | ⟨i, e, h, _⟩
      · rw [e]; exact iff_of_false (fun hn => hn ((h1 q).resolve_right h)) (by simp)
      · rw [e]; exact iff_of_true (by rw [h.blk]; simp) rfl
    · rw [hL q hq, ← l.blk q]
      rcases all q with e | e
      · rw [a.nob rfl q hq e, e]
      · rw [(a.blk q hq).mpr e, e]
  refine ⟨g.inv, g.stat l.stat, h2, fun q => ?_, fun q i hq => ?_⟩
  · cases e : w'.G.eff q with
    | none => rfl
    | some n =>
      obtain ⟨⟨t', ht⟩, s, gd, hh, _⟩ := g.inv.eff q n e
      by_cases hq : A q
      · rcases hA q hq with ⟨_, h⟩ | ⟨i, _, h, _⟩
        · rcases h1 q with e2 | e2
          · rw [e2] at ht; exact absurd ht (by simp)
          · exact absurd e2 h
        · rw [h.eff] at e; exact absurd e (by simp)
      · have hb : w.G.blk q = .thr t := by
          rcases all q with e1 | e1
          · rw [a.nob rfl q hq e1] at ht; exact absurd ht (by simp)
          · exact e1
        have k := a.keep q hq hb
        rcases (l.inv.blk q).mp (by rw [hb]; simp) with ⟨a', c', i', k', hs⟩ | ⟨s', g', hr⟩
        · have e3 := (k.small _ _ _ _ hs).1
          exact (not_small_has hro g.inv e3 hh).elim
        · rw [(k.large _ _ hr).2.1, l.eff q] at e; exact absurd e (by simp)
  · by_cases hA' : A q
    · rcases hA q hA' with ⟨e, _⟩ | ⟨i', e, _, h⟩
      · rw [e] at hq; exact absurd hq (by simp)
      · rw [e] at hq; cases hq; exact h
    · rw [hL q hA'] at hq
      have hb : w.G.blk q = .thr t := (all q).resolve_left ((l.blk q).mpr (by rw [hq]; rfl))
      exact (l.sized q i hq).keep (a.keep q hA' hb)

end HM
