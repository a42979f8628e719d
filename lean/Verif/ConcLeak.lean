import Verif.Leak
import Verif.ConcInv
/-
Accounting for mapped pages and allocated blocks while calls of several threads are interleaved: what every function does to
the set of blocks its thread has, and to the pages that only it accounts for.
-/
namespace HM

variable {ro : Ro} {calm : Bool} {t : Nat}

/-- What a call in progress accounts for: the region `x` that it is resizing (0: none), the pages `H` that are mapped but not
registered, and the blocks `B`. -/
structure Bag where
  x : Nat
  H : Nat → Prop
  B : Nat → Prop

/-- Every mapped page is in `K`, belongs to a registered region not in `X`, to the quarantine, or to `H`. -/
def Covers (g : Cfg) (K X H : Nat → Prop) (σ : St) : Prop :=
  ∀ pg, σ.vm.prot pg ≠ .unmapped → K pg ∨ (∃ r, σ.rt.Has r ∧ ¬ X r.p ∧ r.pages pg) ∨ InRegionQ g σ pg ∨ H pg

/-- The bag goes with the world: the thread has the region that it is resizing, and all its blocks are in the bag. -/
structure Bag.Ok (t : Nat) (b : Bag) (w : World) : Prop where
  x : b.x ≠ 0 → w.G.blk b.x = .thr t
  B : ∀ p, w.G.blk p = .thr t → b.B p

/-- If everything was accounted for with the bag `b` before, then it is with the bag `b'` afterwards, whatever the other
threads account for. -/
def Bag.Moves (ro : Ro) (t : Nat) (w : World) (σ' : St) (b b' : Bag) : Prop :=
  ∀ K X : Nat → Prop, (∀ pg, inPages ro.slabStart (ro.arenaSize * ro.g.nArena) pg → K pg) →
    (∀ p, X p → w.G.blk p ≠ .thr t ∧ w.G.blk p ≠ .nobody) →
    Covers ro.g K (fun p => p = b.x ∨ X p) b.H w.σ → Covers ro.g K (fun p => p = b'.x ∨ X p) b'.H σ'

/-- Running `P` in thread `t`, interleaved with others: every action moves the bag, and on return `Q` holds. -/
def LC (ro : Ro) (calm : Bool) (t : Nat) {α : Type} : Prog α → (α → World → Bag → Prop) → World → Bag → Prop
  | .ret a, Q, w, b => Q a w b
  | .act (l := l) f k, Q, w, b => ∀ ch tl σ' tl' y G', SEnv calm ch → GInv ro w → b.Ok t w → f ch w.σ tl = .ok (σ', tl', y) →
      Does ro t l w ⟨σ', G'⟩ →
      ∃ b' : Bag, b'.Ok t ⟨σ', G'⟩ ∧ (calm = true → b.Moves ro t w σ' b') ∧
        ∀ w'', Rely .conc ro t ⟨σ', G'⟩ w'' → LC ro calm t (k y) Q w'' b'

theorem LC.bind {α β : Type} {P : Prog α} {f : α → Prog β} {Q : β → World → Bag → Prop} {w : World} {b : Bag}
    (h : LC ro calm t P (fun a w b => LC ro calm t (f a) Q w b) w b) : LC ro calm t (P.bind f) Q w b := by
  induction P generalizing w b with
  | ret a => exact h
  | act g k ih =>
    intro ch tl σ' tl' y G' h1 h2 h3 h4 h5
    obtain ⟨b', k1, k2, k3⟩ := h ch tl σ' tl' y G' h1 h2 h3 h4 h5
    exact ⟨b', k1, k2, fun w'' r => ih y (k3 w'' r)⟩

theorem LC.andThen {α β : Type} {P : Prog α} {f : α → Prog β} {Q : β → World → Bag → Prop} {w : World} {b : Bag}
    (h : LC ro calm t P (fun a w b => LC ro calm t (f a) Q w b) w b) : LC ro calm t (P >>= f) Q w b := LC.bind h

theorem LC.mono {α : Type} {P : Prog α} {Q Q' : α → World → Bag → Prop} {w : World} {b : Bag} (h : LC ro calm t P Q w b)
    (hQ : ∀ a w b, Q a w b → Q' a w b) : LC ro calm t P Q' w b := by
  induction P generalizing w b with
  | ret a => exact hQ _ _ _ h
  | act g k ih =>
    intro ch tl σ' tl' y G' h1 h2 h3 h4 h5
    obtain ⟨b', k1, k2, k3⟩ := h ch tl σ' tl' y G' h1 h2 h3 h4 h5
    exact ⟨b', k1, k2, fun w'' r => ih y (k3 w'' r)⟩

theorem LC.pure {α : Type} {a : α} {Q : α → World → Bag → Prop} {w : World} {b : Bag} (h : Q a w b) : LC ro calm t (pure a : Prog α) Q w b := h

/-! ### Blocks -/

/-- A block that the thread has after its action was its own or nobody's. -/
theorem Does.was {l : Option Sect} {w w' : World} (d : Does ro t l w w') {p : Nat} (h : w'.G.blk p = .thr t) :
    w.G.blk p = .thr t ∨ w.G.blk p = .nobody := by
  cases e : w.G.blk p with
  | nobody => exact Or.inr rfl
  | app => have := ((d.same .app (by simp) (by simp)).blk p).mpr e; rw [h] at this; cases this
  | thr u =>
    by_cases hu : u = t
    · exact Or.inl (by rw [hu])
    · have := ((d.same (.thr u) (by simp) (by simp [hu])).blk p).mpr e
      rw [h] at this; cases this; exact absurd rfl hu

/-- A block that was not somebody else's is nobody's or the thread's. -/
theorem Does.becomes {l : Option Sect} {w w' : World} (d : Does ro t l w w') {p : Nat} (h : w.G.blk p = .thr t ∨ w.G.blk p = .nobody)
    (h' : w'.G.blk p ≠ .nobody) : w'.G.blk p = .thr t := by
  cases e : w'.G.blk p with
  | nobody => exact absurd e h'
  | app => have := ((d.same .app (by simp) (by simp)).blk p).mp e; rcases h with h | h <;> rw [h] at this <;> cases this
  | thr u =>
    by_cases hu : u = t
    · rw [hu]
    · have := ((d.same (.thr u) (by simp) (by simp [hu])).blk p).mp e
      rcases h with h | h
      · rw [h] at this; cases this; exact absurd rfl hu
      · rw [h] at this; cases this

/-- The thread has region `r`. -/
def OwnR (t : Nat) (r : RegionMeta) (w : World) : Prop := w.σ.rt.Has r ∧ w.G.blk r.p = .thr t

/-- The regions of the thread are kept, and so are its blocks. -/
structure Keeps (t : Nat) (w w' : World) : Prop where
  reg : ∀ r, OwnR t r w → OwnR t r w'
  blk : ∀ p, w.G.blk p = .thr t → w'.G.blk p = .thr t

theorem Keeps.refl (w : World) : Keeps t w w := ⟨fun _ h => h, fun _ h => h⟩
theorem Keeps.trans {w w' w'' : World} (h : Keeps t w w') (h' : Keeps t w' w'') : Keeps t w w'' :=
  ⟨fun r k => h'.reg r (h.reg r k), fun p k => h'.blk p (h.blk p k)⟩

theorem Rely.keeps {w w' : World} (r : Rely .conc ro t w w') : Keeps t w w' :=
  have r : Trans ro (fun h => h = .thr t) w w' := r
  ⟨fun q h => ⟨((r.same (.thr t) (by simp) rfl).large q h.2 h.1).1, ((r.same (.thr t) (by simp) rfl).blk _).mpr h.2⟩,
    fun _ h => ((r.same (.thr t) (by simp) rfl).blk _).mpr h⟩

theorem OwnR.own {l : Option Sect} {w w' : World} (d : Does ro t l w w') {r : RegionMeta} (h : w.G.blk r.p = .thr t ∨ w.G.blk r.p = .nobody)
    (h' : w'.σ.rt.Has r) : OwnR t r w' := ⟨h', d.becomes h (by rw [Ne, ← Ne, d.inv.blk]; exact Or.inr ⟨_, _, h'⟩)⟩

/-- An action that removes no block keeps those of the thread. -/
theorem Does.keeps {l : Option Sect} {w w' : World} (d : Does ro t l w w') (i : GInv ro w) (hrt : ∀ r, w.σ.rt.Has r → w'.σ.rt.Has r)
    (hsc : ∀ p a c i k, IsSmall ro w.σ p a c i k → IsSmall ro w'.σ p a c i k) : Keeps t w w' where
  reg r h := OwnR.own d (Or.inl h.2) (hrt r h.1)
  blk p h := d.becomes (Or.inl h) ((d.inv.blk p).mpr (by
    rcases (i.blk p).mp (by rw [h]; simp) with ⟨a, c, j, k, hs⟩ | ⟨s, g, hr⟩
    · exact Or.inl ⟨a, c, j, k, hsc _ _ _ _ _ hs⟩
    · exact Or.inr ⟨s, g, hrt _ hr⟩))

theorem Keeps.ok {w w' : World} {b : Bag} (k : Keeps t w w') (h : b.Ok t w) {H B : Nat → Prop} (hB : ∀ p, w'.G.blk p = .thr t → B p) :
    (⟨b.x, H, B⟩ : Bag).Ok t w' := ⟨fun e => k.blk _ (h.x e), hB⟩

/-- The blocks of the thread when no block comes into being. -/
theorem Does.old {l : Option Sect} {w w' : World} (d : Does ro t l w w') (i : GInv ro w) (hrt : ∀ s g p, w'.σ.rt.Has ⟨p, s, g⟩ → ∃ s' g', w.σ.rt.Has ⟨p, s', g'⟩)
    (hsc : ∀ p a c i k, IsSmall ro w'.σ p a c i k → IsSmall ro w.σ p a c i k) {p : Nat} (h : w'.G.blk p = .thr t) : w.G.blk p = .thr t := by
  rcases d.was h with k | k
  · exact k
  · refine absurd k ((i.blk p).mpr ?_)
    rcases (d.inv.blk p).mp (by rw [h]; simp) with ⟨a, c, i, k, hs⟩ | ⟨s, g, hr⟩
    · exact Or.inl ⟨a, c, i, k, hsc _ _ _ _ _ hs⟩
    · exact Or.inr (hrt _ _ _ hr)

/-- An action that changes only protections and contents. -/
theorem LC.vm {α β : Type} {l : Option Sect} {f : Choice → St → Tl → Res (St × Tl × β)} {k : β → Prog α} {Q : α → World → Bag → Prop} {w : World} {b : Bag}
    (h : ∀ ch tl σ' tl' y, SEnv calm ch → GInv ro w → f ch w.σ tl = .ok (σ', tl', y) → (∃ vm, σ' = { w.σ with vm := vm }) ∧ ∃ x' H',
      (x' ≠ 0 → w.G.blk x' = .thr t) ∧ (calm = true → b.Moves ro t w σ' ⟨x', H', b.B⟩) ∧
      ∀ w', Keeps t w w' → LC ro calm t (k y) Q w' ⟨x', H', b.B⟩) :
    LC ro calm t (.act (l := l) f k) Q w b := by
  intro ch tl σ' tl' y G' h1 h2 h3 h4 h5
  obtain ⟨⟨vm, rfl⟩, x', H', hx, hm, hk⟩ := h ch tl σ' tl' y h1 h2 h4
  have hown : Keeps t w ⟨{ w.σ with vm := vm }, G'⟩ := h5.keeps h2 (fun _ h => h) fun _ _ _ _ _ h => h
  refine ⟨⟨x', H', b.B⟩, ⟨fun e => ?_, fun p hp => h3.B p (h5.old h2 (fun _ _ _ hr => ⟨_, _, hr⟩) (fun _ _ _ _ _ hs => hs) hp)⟩, hm, fun w'' r => hk w'' (Keeps.trans hown r.keeps)⟩
  refine h5.becomes (Or.inl (hx e)) ((h5.inv.blk _).mpr ?_)
  exact (h2.blk x').mp (by rw [hx e]; simp)

/-- The same, when what is being resized does not change. -/
theorem LC.prot {α β : Type} {l : Option Sect} {f : Choice → St → Tl → Res (St × Tl × β)} {k : β → Prog α} {Q : α → World → Bag → Prop} {w : World} {b : Bag}
    (h : ∀ ch tl σ' tl' y, SEnv calm ch → GInv ro w → f ch w.σ tl = .ok (σ', tl', y) → (∃ vm, σ' = { w.σ with vm := vm }) ∧ ∃ H',
      (calm = true → ∀ pg, σ'.vm.prot pg ≠ .unmapped → (w.σ.vm.prot pg ≠ .unmapped ∧ (b.H pg → H' pg)) ∨ H' pg) ∧
      ∀ w', Keeps t w w' → LC ro calm t (k y) Q w' { b with H := H' }) :
    LC ro calm t (.act (l := l) f k) Q w b := by
  intro ch tl σ' tl' y G' h1 h2 h3 h4 h5
  revert h4 h5
  refine fun h4 h5 => LC.vm (fun ch tl σ' tl' y h1 h2 h4 => ?_) ch tl σ' tl' y G' h1 h2 h3 h4 h5
  obtain ⟨⟨vm, rfl⟩, H', hm, hk⟩ := h ch tl σ' tl' y h1 h2 h4
  refine ⟨⟨vm, rfl⟩, b.x, H', h3.x, fun e K X hK hX hc pg hp => ?_, hk⟩
  rcases hm e pg hp with ⟨k1, k2⟩ | k
  · rcases hc pg k1 with k | k | k | k
    · exact Or.inl k
    · exact Or.inr (Or.inl k)
    · exact Or.inr (Or.inr (Or.inl k))
    · exact Or.inr (Or.inr (Or.inr (k2 k)))
  · exact Or.inr (Or.inr (Or.inr k))

/-- An action that leaves the state alone. -/
theorem LC.still {α β : Type} {l : Option Sect} {f : Choice → St → Tl → Res (St × Tl × β)} {k : β → Prog α} {Q : α → World → Bag → Prop} {w : World} {b : Bag}
    (hf : ∀ ch tl σ' tl' y, SEnv calm ch → f ch w.σ tl = .ok (σ', tl', y) → σ' = w.σ) (h : ∀ y w', Keeps t w w' → LC ro calm t (k y) Q w' b) :
    LC ro calm t (.act (l := l) f k) Q w b :=
  LC.prot fun ch tl σ' tl' y h1 _ h4 => ⟨⟨w.σ.vm, hf ch tl σ' tl' y h1 h4⟩, b.H, fun _ pg hp => Or.inl ⟨by rw [hf ch tl σ' tl' y h1 h4] at hp; exact hp, id⟩,
    fun w' hw => h y w' hw⟩

/-! ### System calls -/

section
variable {Q : Bool → World → Bag → Prop} {w : World} {b : Bag}

theorem LC.sysCall {se : Bool} {f : Choice → Vm → Res (Vm × Bool)} (h : ∀ ch vm y, SEnv calm ch → f ch w.σ.vm = .ok (vm, y) → ∃ H',
      (calm = true → ∀ pg, vm.prot pg ≠ .unmapped → (w.σ.vm.prot pg ≠ .unmapped ∧ (b.H pg → H' pg)) ∨ H' pg) ∧
      ∀ w', Keeps t w w' → Q y w' { b with H := H' }) : LC ro calm t (HM.sysCall se f) Q w b := by
  refine LC.prot fun ch tl σ' tl' y h1 _ h4 => ?_
  revert h4
  cases e : f ch w.σ.vm with
  | ok r =>
    obtain ⟨vm, b1⟩ := r
    intro h4
    cases h4
    exact ⟨⟨vm, rfl⟩, h ch _ _ h1 e⟩
  | fatal m => intro h; cases h
  | segv => intro h; cases h
  | ub _ => intro h; cases h
  | hang => intro h; cases h

theorem not_calm {ch : Choice} {k : Nat} (h : SEnv calm ch) (e : ch.sys k = .enomem) : calm = false := by
  cases hc : calm with
  | false => rfl
  | true => exact absurd e ((h.1.2 hc).2 k)

theorem LC.unmap {a n : Nat} {H1 H2 : Nat → Prop} (hH : calm = true → ∀ pg, b.H pg → ¬ inPages a n pg → H1 pg) (h : ∀ w', Keeps t w w' → Q false w' { b with H := H1 })
    (h' : calm = false → ∀ w', Keeps t w w' → Q true w' { b with H := H2 }) : LC ro calm t (sysUnmap a n) Q w b := by
  refine LC.sysCall fun ch vm y h1 h4 => ?_
  unfold memoryUnmap at h4
  split at h4
  · cases h4
  · cases e : ch.sys 0 with
    | ok =>
      rw [e] at h4; cases h4
      refine ⟨H1, fun hc pg k => ?_, h⟩
      by_cases hp : inPages a n pg
      · exact absurd (if_pos hp) k
      · exact Or.inl ⟨fun e => k ((if_neg hp).trans e), fun q => hH hc pg q hp⟩
    | enomem =>
      rw [e] at h4; cases h4
      have hc := not_calm h1 e
      exact ⟨H2, fun e => absurd (hc.symm.trans e) (by simp), h' hc⟩
    | other => rw [e] at h4; cases h4

theorem LC.unmapTrail {a n : Nat} {H1 : Nat → Prop} (hH : ∀ pg, b.H pg → ¬ inPages a n pg → H1 pg) (h : ∀ w', Keeps t w w' → Q false w' { b with H := H1 }) :
    LC ro calm t (sysUnmapTrail a n) Q w b := by
  refine LC.sysCall fun ch vm y h1 h4 => ?_
  unfold memoryUnmap at h4
  split at h4
  · cases h4
  · cases e : ch.trailUnmap with
    | ok =>
      rw [e] at h4; cases h4
      refine ⟨H1, fun _ pg k => ?_, h⟩
      by_cases hp : inPages a n pg
      · exact absurd (if_pos hp) k
      · exact Or.inl ⟨fun e => k ((if_neg hp).trans e), fun q => hH pg q hp⟩
    | enomem => exact absurd e h1.2
    | other => rw [e] at h4; cases h4

theorem LC.mapFixed {a n : Nat} {H1 H2 : Nat → Prop} (hH : ∀ pg, b.H pg ∨ inPages a n pg → H1 pg) (h : ∀ w', Keeps t w w' → Q false w' { b with H := H1 })
    (h' : calm = false → ∀ w', Keeps t w w' → Q true w' { b with H := H2 }) : LC ro calm t (sysMapFixed a n) Q w b := by
  refine LC.sysCall fun ch vm y h1 h4 => ?_
  unfold memoryMapFixed at h4
  split at h4
  · cases h4
  · cases e : ch.sys 0 with
    | ok =>
      rw [e] at h4; cases h4
      refine ⟨H1, fun _ pg k => ?_, h⟩
      by_cases hp : inPages a n pg
      · exact Or.inr (hH pg (Or.inr hp))
      · exact Or.inl ⟨fun e => k ((if_neg hp).trans e), fun q => hH pg (Or.inl q)⟩
    | enomem =>
      rw [e] at h4; cases h4
      have hc := not_calm h1 e
      exact ⟨H2, fun e => absurd (hc.symm.trans e) (by simp), h' hc⟩
    | other => rw [e] at h4; cases h4

theorem LC.protect {a n : Nat} (h : ∀ y w', Keeps t w w' → Q y w' b) : LC ro calm t (sysProtect a n) Q w b := by
  refine LC.sysCall fun ch vm y h1 h4 => ⟨b.H, fun hc pg hp => Or.inl ⟨?_, id⟩, h y⟩
  unfold memoryProtectRw at h4
  split at h4
  · cases h4
  · cases e : ch.sys 0 with
    | ok =>
      rw [e] at h4
      simp only at h4
      split at h4
      · rename_i hall
        cases h4
        by_cases k : inPages a n pg
        · have := allPages_inPages hall k
          simpa using this
        · have : (w.σ.vm.setProt a n .rw).prot pg = w.σ.vm.prot pg := if_neg k
          rwa [this] at hp
      · cases h4; exact hp
    | enomem => exact absurd ((not_calm h1 e).symm.trans hc) (by simp)
    | other => rw [e] at h4; cases h4

theorem LC.purge {a n : Nat} (h : ∀ y w', Keeps t w w' → Q y w' b) : LC ro calm t (sysPurge a n) Q w b := by
  refine LC.sysCall fun ch vm y h1 h4 => ⟨b.H, fun _ pg hp => Or.inl ⟨?_, id⟩, h y⟩
  have : vm.prot = w.σ.vm.prot := by
    unfold memoryPurge at h4
    split at h4
    · rename_i vm1 e
      cases h4
      split at e
      · cases e
      · cases k : ch.sys 0 <;> rw [k] at e <;> cases e <;> rfl
    all_goals cases h4
  rw [← this]; exact hp

end

theorem LC.map {n : Nat} {Q : Option Nat → World → Bag → Prop} {w : World} {b : Bag} (F : Nat → Nat → Prop)
    (hF : ∀ a pg, b.H pg ∨ inPages a n pg → F a pg) (h0 : ∀ w', Keeps t w w' → Q none w' b)
    (h : ∀ a w', Keeps t w w' → a % PAGE = 0 → PAGE ≤ a → a + n ≤ ADDR_END → Q (some a) w' { b with H := F a }) :
    LC ro calm t (sysMap n) Q w b := by
  refine LC.prot fun ch tl σ' tl' y h1 _ h4 => ?_
  unfold memoryMap at h4
  cases e : ch.sys 0 with
  | ok =>
    rw [e] at h4
    simp only at h4
    split at h4
    · rename_i vm a e'
      cases h4
      split at e'
      · cases e'
      · split at e'
        · rename_i hc
          cases e'
          refine ⟨⟨_, rfl⟩, F ch.addr, fun _ pg k => ?_, fun w' hw => h _ w' hw hc.1 hc.2.1 hc.2.2.1⟩
          by_cases hp : inPages ch.addr n pg
          · exact Or.inr (hF _ _ (Or.inr hp))
          · exact Or.inl ⟨fun e => k ((if_neg hp).trans e), fun q => hF _ _ (Or.inl q)⟩
        · cases e'
    · rename_i vm e'
      cases h4
      split at e'
      · cases e'
      · split at e'
        · cases e'
        · cases e'; exact ⟨⟨_, rfl⟩, b.H, fun _ pg hp => Or.inl ⟨hp, id⟩, h0⟩
    all_goals cases h4
  | enomem =>
    rw [e] at h4
    cases h4
    exact ⟨⟨_, rfl⟩, b.H, fun _ pg hp => Or.inl ⟨hp, id⟩, h0⟩
  | other => rw [e] at h4; cases h4

theorem LC.remap {old oldSize new newSize : Nat} {Q : Bool → World → Bag → Prop} {w : World} {b : Bag} {H1 H2 : Nat → Prop}
    (hH : ∀ pg, inPages new newSize pg ∨ (b.H pg ∧ ¬ inPages old oldSize pg) → H1 pg)
    (h : ∀ w', Keeps t w w' → Q false w' { b with H := H1 }) (h' : calm = false → ∀ w', Keeps t w w' → Q true w' { b with H := H2 }) :
    LC ro calm t (sysRemap old oldSize new newSize) Q w b := by
  refine LC.sysCall fun ch vm y h1 h4 => ?_
  unfold memoryRemapFixed at h4
  split at h4
  · cases h4
  · cases e : ch.sys 0 with
    | ok =>
      rw [e] at h4; cases h4
      refine ⟨H1, fun _ pg k => ?_, h⟩
      simp only at k
      by_cases hp : inPages new newSize pg
      · exact Or.inr (hH pg (Or.inl hp))
      · rw [if_neg hp] at k
        by_cases hq : inPages old oldSize pg
        · rw [if_pos hq] at k; exact absurd rfl k
        · rw [if_neg hq] at k
          exact Or.inl ⟨k, fun q => hH pg (Or.inr ⟨q, hq⟩)⟩
    | enomem =>
      rw [e] at h4; cases h4
      have hc := not_calm h1 e
      exact ⟨H2, fun e => absurd (hc.symm.trans e) (by simp), h' hc⟩
    | other => rw [e] at h4; cases h4

/-! ### Local actions -/

section
variable {w : World} {b : Bag}

theorem LC.unseal {Q : Unit → World → Bag → Prop} (h : ∀ w', Keeps t w w' → Q () w' b) : LC ro calm t unsealMeta Q w b :=
  LC.still (fun _ _ _ _ _ _ e => by cases e; rfl) fun _ => h
theorem LC.sealM {Q : Unit → World → Bag → Prop} (h : ∀ w', Keeps t w w' → Q () w' b) : LC ro calm t sealMeta Q w b :=
  LC.still (fun _ _ _ _ _ _ e => by cases e; rfl) fun _ => h
theorem LC.setErrno {n : Errno} {Q : Unit → World → Bag → Prop} (h : ∀ w', Keeps t w w' → Q () w' b) : LC ro calm t (setErrno n) Q w b :=
  LC.still (fun _ _ _ _ _ _ e => by cases e; rfl) fun _ => h
theorem LC.getErrno {Q : Errno → World → Bag → Prop} (h : ∀ e w', Keeps t w w' → Q e w' b) : LC ro calm t getErrno Q w b :=
  LC.still (fun _ _ _ _ _ _ e => by cases e; rfl) h
theorem LC.die {α : Type} {msg : String} {Q : α → World → Bag → Prop} : LC ro calm t (die msg) Q w b := fun _ _ _ _ y => nomatch y

theorem LC.memCopy {d s n : Nat} {Q : Unit → World → Bag → Prop} (h : ∀ w', Keeps t w w' → Q () w' b) : LC ro calm t (memCopy d s n) Q w b := by
  refine LC.prot fun _ _ _ _ _ _ _ e => ?_
  split at e
  · cases e; exact ⟨⟨_, rfl⟩, b.H, fun _ pg hp => Or.inl ⟨hp, id⟩, h⟩
  · cases e

theorem LC.memZero {p n : Nat} {Q : Unit → World → Bag → Prop} (h : ∀ w', Keeps t w w' → Q () w' b) : LC ro calm t (memZero p n) Q w b := by
  refine LC.prot fun _ _ _ _ _ _ _ e => ?_
  split at e
  · cases e; exact ⟨⟨_, rfl⟩, b.H, fun _ pg hp => Or.inl ⟨hp, id⟩, h⟩
  · cases e

/-! ### Critical sections -/

theorem LC.critical {β : Type} {s : Sect} {f : Choice → St → Errno → Res (St × Errno × β)} {Q : β → World → Bag → Prop}
    (h : ∀ ch e σ' e' y G', SEnv calm ch → GInv ro w → b.Ok t w → f ch w.σ e = .ok (σ', e', y) → Does ro t (some s) w ⟨σ', G'⟩ →
      ∃ b' : Bag, b'.Ok t ⟨σ', G'⟩ ∧ (calm = true → b.Moves ro t w σ' b') ∧ ∀ w'', Rely .conc ro t ⟨σ', G'⟩ w'' → Q y w'' b') :
    LC ro calm t (critical ro s f) Q w b := by
  intro ch tl σ' tl' y G' h1 h2 h3 h4 h5
  dsimp only at h4
  by_cases hs : (ro.g.sealMetadata && !tl.unsealed) = true
  · rw [if_pos hs] at h4; cases h4
  · rw [if_neg hs] at h4
    revert h4
    cases e : f ch w.σ tl.errno with
    | ok r =>
      obtain ⟨σ1, e1, b1⟩ := r
      intro h4
      cases h4
      exact h ch _ _ _ _ G' h1 h2 h3 e h5
    | fatal m => intro h; cases h
    | segv => intro h; cases h
    | ub _ => intro h; cases h
    | hang => intro h; cases h

/-- A critical section that changes nothing. -/
theorem LC.reads {β : Type} {s : Sect} {f : Choice → St → Errno → Res (St × Errno × β)} {Q : β → World → Bag → Prop}
    (hf : ∀ ch e σ' e' y, f ch w.σ e = .ok (σ', e', y) → σ' = w.σ) (h : ∀ ch e σ' e' y, f ch w.σ e = .ok (σ', e', y) → GInv ro w → ∀ w', Keeps t w w' → Q y w' b) :
    LC ro calm t (HM.critical ro s f) Q w b := by
  refine LC.critical fun ch e σ' e' y G' _ h2 h3 h4 h5 => ?_
  have e1 := hf ch e σ' e' y h4
  subst e1
  refine ⟨b, ⟨fun k => h5.becomes (Or.inl (h3.x k)) ((h5.inv.blk _).mpr ((h2.blk b.x).mp (by rw [h3.x k]; simp))),
    fun p hp => h3.B p (h5.old h2 (fun _ _ _ hr => ⟨_, _, hr⟩) (fun _ _ _ _ _ hs => hs) hp)⟩, fun _ _ _ _ _ hc => hc, fun w'' r => ?_⟩
  exact h ch e _ e' y h4 h2 w'' (Keeps.trans (h5.keeps h2 (fun _ h => h) fun _ _ _ _ _ h => h) r.keeps)

theorem LC.drawGuard {n : Nat} {Q : Nat → World → Bag → Prop} (h : ∀ g w', Keeps t w w' → g % PAGE = 0 → PAGE ≤ g → Q g w' b) : LC ro calm t (drawGuard ro n) Q w b :=
  LC.reads (fun _ _ _ _ _ e => by cases e; rfl) fun ch _ _ _ _ e _ w' hw => by cases e; exact h _ w' hw (guardSize_ok ro.g ch n).1 (guardSize_ok ro.g ch n).2

theorem LC.smallCheck {p : Nat} {Q : Unit → World → Bag → Prop} (h : ∀ y w', Keeps t w w' → Q y w' b) : LC ro calm t (smallCheck ro p) Q w b :=
  LC.reads (fun ch e σ' e' b hf => by
    simp only at hf
    split at hf
    · cases hf
    · split at hf <;> first | (cases hf; rfl) | cases hf) fun _ _ _ _ y _ _ => h y

theorem LC.smallOffset {p : Nat} {Q : Nat → World → Bag → Prop} (h : ∀ y w', Keeps t w w' → Q y w' b) : LC ro calm t (smallOffset ro p) Q w b :=
  LC.reads (fun ch e σ' e' b hf => by
    simp only at hf
    split at hf
    · cases hf
    · split at hf <;> first | (cases hf; rfl) | cases hf) fun _ _ _ _ y _ _ => h y

theorem LC.largeObjectSize {p : Nat} {Q : Nat → World → Bag → Prop} (h : ∀ y w', Keeps t w w' → Q y w' b) : LC ro calm t (largeObjectSize ro p) Q w b :=
  LC.reads (fun ch e σ' e' b hf => by split at hf <;> first | (cases hf; rfl) | cases hf) fun _ _ _ _ y _ _ => h y

theorem LC.readLargeStats {Q : Nat → World → Bag → Prop} (h : ∀ y w', Keeps t w w' → Q y w' b) : LC ro calm t (readLargeStats ro) Q w b :=
  LC.reads (fun ch e σ' e' b hf => by cases hf; rfl) fun _ _ _ _ y _ _ => h y

theorem LC.readClassStats {a c : Nat} {Q : Nat × Nat → World → Bag → Prop} (h : ∀ y w', Keeps t w w' → Q y w' b) : LC ro calm t (readClassStats ro a c) Q w b :=
  LC.reads (fun ch e σ' e' b hf => by cases hf; rfl) fun _ _ _ _ y _ _ => h y

/-- The region that is found is the one that the thread has. -/
theorem LC.findRegion {p : Nat} {msg : String} {Q : Nat × Nat → World → Bag → Prop} (hp : w.G.blk p = .thr t)
    (h : ∀ (r : RegionMeta) w', Keeps t w w' → OwnR t r w' → r.p = p → RegOk r → Q (r.size, r.guard) w' b) : LC ro calm t (findRegion ro p msg) Q w b := by
  refine LC.reads (fun ch e σ' e' b hf => by
    split at hf
    · cases hf; rfl
    all_goals cases hf) fun ch e σ' e' y hf hi w' hw => ?_
  rcases lookupRegion_spec hi p with ⟨i, r, h1, h2, h3, h4, h5⟩ | ⟨h1, h2⟩
  · rw [h1] at hf
    cases hf
    exact h r w' hw (hw.reg r ⟨h5, by rw [h4]; exact hp⟩) h4 (hi.reg r h5)
  · rw [h1] at hf; cases hf

end

/-! ### pages.c -/

section
variable {w : World} {b : Bag}

theorem LC.allocatePages {Q : Option Nat → World → Bag → Prop} {size guard : Nat} (hs : 0 < size) (h0 : ∀ w', Keeps t w w' → Q none w' b)
    (h : ∀ p w' H', Keeps t w w' → guard + PAGE ≤ p → (∀ pg, H' pg → b.H pg ∨ Ext p size guard pg) → Q (some p) w' { b with H := H' }) :
    LC ro calm t (HM.allocatePages size guard) Q w b := by
  unfold HM.allocatePages
  cases ha : addGuards size guard with
  | none => exact LC.andThen (LC.setErrno h0)
  | some n =>
    obtain ⟨rfl, hn⟩ := addGuards_some ha
    refine LC.andThen (LC.map (fun a pg => b.H pg ∨ Ext (a + guard) size guard pg) (fun a pg k => k.imp id fun k => ?_) h0 fun a w1 k1 h1 h2 h3 => ?_)
    · unfold Ext inPages at *; omega
    refine LC.andThen (LC.protect fun y w2 k2 => ?_)
    cases y with
    | true =>
      refine LC.andThen (LC.unmap (H1 := b.H) (H2 := b.H) ?_ (fun w3 k3 => h0 w3 ((k1.trans k2).trans k3)) (fun _ w3 k3 => h0 w3 ((k1.trans k2).trans k3)))
      rintro - pg (k | k) k'
      · exact k
      · unfold Ext inPages at *; omega
    | false => exact LC.pure (h _ w2 _ (k1.trans k2) (by omega) fun _ k => k)

theorem LC.deallocatePages {Q : Unit → World → Bag → Prop} {p size guard : Nat} {H' : Nat → Prop} (hH : ∀ pg, b.H pg → ¬ Ext p size guard pg → H' pg)
    (h : ∀ w', Keeps t w w' → Q () w' { b with H := H' }) : LC ro calm t (HM.deallocatePages p size guard) Q w b := by
  unfold HM.deallocatePages
  exact LC.andThen (LC.unmap (H1 := H') (H2 := H') (fun _ => hH) h fun _ w1 k1 => LC.andThen (LC.purge fun _ w2 k2 => h w2 (k1.trans k2)))

theorem LC.trimMapping {Q : Option Nat → World → Bag → Prop} {real n lead base size guard trail : Nat} {H0 : Nat → Prop}
    (hl : lead = 0 → real % PAGE = 0) (ht : trail = 0 → (base + size + guard) % PAGE = 0)
    (h : ∀ w' H', Keeps t w w' → (∀ pg, H' pg → b.H pg ∧ ¬ inPages real lead pg ∧ ¬ inPages (base + size + guard) trail pg) → Q (some base) w' { b with H := H' })
    (h0 : ∀ w', Keeps t w w' → Q none w' { b with H := H0 }) : LC ro calm t (HM.trimMapping real n lead base size guard trail) Q w b := by
  unfold HM.trimMapping
  have second : ∀ w1 H1, Keeps t w w1 → (∀ pg, H1 pg → b.H pg ∧ ¬ inPages real lead pg) →
      LC ro calm t (do
        if ← (if trail ≠ 0 then sysUnmapTrail (base + size + guard) trail else Pure.pure false) then
          let _ ← sysUnmap real n
          return none
        else return some base) Q w1 { b with H := H1 } := by
    intro w1 H1 k1 h1
    by_cases e : trail ≠ 0
    · rw [if_pos e]
      exact LC.andThen (LC.unmapTrail (H1 := fun pg => H1 pg ∧ ¬ inPages (base + size + guard) trail pg) (fun _ k k' => ⟨k, k'⟩)
        fun w2 k2 => h w2 _ (k1.trans k2) fun pg k => ⟨(h1 pg k.1).1, (h1 pg k.1).2, k.2⟩)
    · rw [if_neg e]
      refine h w1 _ k1 fun pg k => ⟨(h1 pg k).1, (h1 pg k).2, ?_⟩
      have := ht (by omega)
      unfold inPages; omega
  by_cases e : lead ≠ 0
  · rw [if_pos e]
    refine LC.andThen (LC.unmap (H1 := fun pg => b.H pg ∧ ¬ inPages real lead pg) (H2 := b.H) (fun _ _ k k' => ⟨k, k'⟩) (fun w1 k1 => second w1 _ k1 fun _ k => k) fun hc w1 k1 => ?_)
    exact LC.andThen (LC.unmap (H1 := H0) (H2 := H0) (fun e => absurd (hc.symm.trans e) (by simp)) (fun w2 k2 => h0 w2 (k1.trans k2)) fun _ w2 k2 => h0 w2 (k1.trans k2))
  · rw [if_neg e]
    refine second w b.H (Keeps.refl w) fun pg k => ⟨k, ?_⟩
    have := hl (by omega)
    unfold inPages; omega

theorem LC.mapAligned {Q : Option Nat → World → Bag → Prop} {size guard e : Nat} (hg : guard % PAGE = 0)
    (hg1 : PAGE ≤ guard) (hs : 0 < size) (hsm : size % PAGE = 0) (he : 12 ≤ e) (h0 : ∀ w', Keeps t w w' → Q none w' b)
    (h : ∀ p w' H', Keeps t w w' → guard + PAGE ≤ p → p % PAGE = 0 → (∀ pg, H' pg → b.H pg ∨ Ext p size guard pg) → Q (some p) w' { b with H := H' }) :
    LC ro calm t (HM.mapAligned size (2 ^ e) guard (size + (2 ^ e - PAGE)) (size + (2 ^ e - PAGE) + guard + guard)) Q w b := by
  unfold HM.mapAligned
  generalize hn : size + (2 ^ e - PAGE) + guard + guard = n
  refine LC.andThen (LC.map (fun a pg => b.H pg ∨ inPages a n pg) (fun a pg k => k) h0 fun real w1 k1 h1 h2 h3 => ?_)
  obtain ⟨lead, hl, hl1, hl2, hl3, hl4, hl5⟩ := align_lead (usable := real + guard) (size := size) he (by omega) hsm (by omega)
  simp only
  rw [hl, hl4]
  refine LC.andThen (LC.protect fun y w2 k2 => ?_)
  cases y with
  | true =>
    refine LC.andThen (LC.unmap (H1 := b.H) (H2 := b.H) ?_ (fun w3 k3 => h0 w3 ((k1.trans k2).trans k3)) (fun _ w3 k3 => h0 w3 ((k1.trans k2).trans k3)))
    rintro - pg (k | k) k'
    · exact k
    · exact absurd k k'
  | false =>
    rw [if_neg (by simp)]
    refine LC.trimMapping (H0 := b.H) (fun _ => h1) (fun _ => by omega) (fun w3 H' k3 hH => h _ w3 H' ((k1.trans k2).trans k3) (by omega) (by omega) fun pg k => ?_)
      fun w3 k3 => h0 w3 ((k1.trans k2).trans k3)
    obtain ⟨k | k, k', k''⟩ := hH pg k
    · exact Or.inl k
    · right; unfold Ext inPages at *; omega

theorem LC.allocatePagesAligned {Q : Option Nat → World → Bag → Prop} {size guard e : Nat} (hg : guard % PAGE = 0)
    (hg1 : PAGE ≤ guard) (hlt : size < W64) (he : 12 ≤ e) (he' : e < 64) (h0 : ∀ w', Keeps t w w' → Q none w' b)
    (h : ∀ p w' H', Keeps t w w' → guard + PAGE ≤ p → (∀ pg, H' pg → b.H pg ∨ Ext p size guard pg) → Q (some p) w' { b with H := H' }) :
    LC ro calm t (HM.allocatePagesAligned size (2 ^ e) guard) Q w b := by
  have hA : PAGE ≤ 2 ^ e := Nat.pow_le_pow_right (n := 2) (by decide) he
  have hAlt : 2 ^ e < W64 := Nat.pow_lt_pow_right (a := 2) (by decide) he'
  have herr : LC ro calm t (do HM.setErrno ENOMEM; return none) Q w b := LC.andThen (LC.setErrno h0)
  unfold HM.allocatePagesAligned
  simp only
  by_cases h1 : pageAlign size = 0
  · rw [if_pos h1]; exact herr
  rw [if_neg h1, sub64_of_le hAlt hA]
  have hpu : pageAlign size = pageUp size := by
    refine pageAlign_of_lt ?_
    by_contra hc
    have : (size + 4095) % W64 < PAGE := by omega
    apply h1
    rw [pageAlign_eq, Nat.div_eq_of_lt this, Nat.zero_mul]
  generalize hd : pageAlign size + (2 ^ e - PAGE) = d
  by_cases h2 : W64 ≤ d
  · rw [if_pos h2]; exact herr
  rw [if_neg h2]
  cases hag : addGuards d guard with
  | none => exact herr
  | some n =>
    obtain ⟨rfl, hlt⟩ := addGuards_some hag
    subst hd
    simp only
    refine LC.mapAligned hg hg1 (by omega) (pageAlign_mod _) he h0 fun p w' H' k1 k2 k0 k3 => h p w' H' k1 k2 fun pg k => (k3 pg k).imp id fun k => ?_
    rw [hpu] at k
    unfold Ext inPages pageUp at *
    omega

/-! ### The region table -/

/-- Recording a region: it is new. -/
theorem regionsInsert_has {hash : Nat → Nat} {rt rt' : RegTable} {maxTotal : Nat} {protOk : Bool} {r : RegionMeta}
    (inv : rt.Inv hash) (hr : r.p ≠ 0) (h : regionsInsert hash maxTotal protOk true rt r = .ok (some rt')) (inv' : rt'.Inv hash) :
    (∀ q, rt'.Has q ↔ rt.Has q ∨ q = r) ∧ ∀ q, rt.Has q → q.p ≠ r.p := by
  have main : ∀ u : RegTable, u.Inv hash → (∀ q, u.Has q ↔ rt.Has q) → 
      (match tableInsert hash u.tab u.total r with
        | none => (.hang : Res (Option RegTable))
        | some tab => .ok (some { u.setTab tab with free := u.free - 1 })) = .ok (some rt') →
      (∀ q, rt'.Has q ↔ rt.Has q ∨ q = r) ∧ ∀ q, rt.Has q → q.p ≠ r.p := by
    intro u uinv hu h
    obtain ⟨k, h7, hk, hT⟩ := uinv.pow
    obtain ⟨z, hz, hz0⟩ := nulls_pos uinv.nulls_pos
    have hb : bucket hash u.total r.p < u.total := bucket_lt hT
    obtain ⟨i, hi, hs, hst, -⟩ := scan_some hT (by omega) hb (fun x => (u.tab x).p == 0) ⟨z, hz, by simp [hz0]⟩
    have hi0 : (u.tab i).p = 0 := by simpa using hst
    rw [show tableInsert hash u.tab u.total r = some (u.tab.set i r) by unfold tableInsert; rw [hs]] at h
    cases h
    have e : ({ u.setTab (u.tab.set i r) with free := u.free - 1 } : RegTable).tab = u.tab.set i r := u.setTab_tab _
    constructor
    · intro q
      rw [← hu]
      show HM.Has (u.setTab (u.tab.set i r)).tab u.total q ↔ _
      rw [u.setTab_tab]
      exact has_set_used hi hi0 hr
    · intro q hq e'
      obtain ⟨hq0, j, hj, hjq⟩ := (hu q).mpr hq
      have hij : j ≠ i := fun e => by rw [e] at hjq; rw [← hjq] at hq0; exact hq0 hi0
      have tinv := inv'.tab
      rw [e] at tinv
      exact hij (tinv.distinct j i hj hi (by rw [RTab.set_ne _ _ hij, hjq]; exact hq0) (by rw [RTab.set_ne _ _ hij, hjq, RTab.set_same]; exact e'))
  unfold regionsInsert at h
  by_cases hg : rt.free * 4 < rt.total
  · rw [if_pos hg] at h
    rcases regionsGrow_spec (maxTotal := maxTotal) (protOk := protOk) inv with ⟨h', hc⟩ | ⟨u, hu, uinv, uh, ut, uf⟩
    · rw [h'] at h; cases h
    · rw [hu] at h
      simp only [Res.bind_ok] at h
      exact main u uinv uh h
  · rw [if_neg hg] at h
    simp only [Res.bind_ok] at h
    exact main rt inv (fun _ => Iff.rfl) h

theorem LC.insertRegion (hro : RoOk ro) {p size guard : Nat} {st : Bool} {H0 : Nat → Prop} {Q : Bool → World → Bag → Prop} (hp : p ≠ 0)
    (hH : ∀ pg, b.H pg → H0 pg ∨ Ext p size guard pg)
    (h1 : ∀ w', Keeps t w w' → OwnR t ⟨p, size, guard⟩ w' → Q true w' ⟨b.x, H0, fun q => b.B q ∨ q = p⟩) (h2 : ∀ w', Keeps t w w' → Q false w' b) :
    LC ro calm t (HM.insertRegion ro p size guard st) Q w b := by
  refine LC.critical fun ch e σ' e' y G' hf hi hb hr d => ?_
  by_cases hc : w.σ.rt.free * 4 < w.σ.rt.total ∧ (ch.sys 0 = .other ∨ ch.growRemap = .other)
  · rw [if_pos hc] at hr; cases hr
  rw [if_neg hc] at hr
  have hrm : regionsInsert hashPage ro.g.maxRegionTable (decide (ch.sys 0 = .ok)) (decide (ch.growRemap = .ok)) w.σ.rt ⟨p, size, guard⟩ =
      regionsInsert hashPage ro.g.maxRegionTable (decide (ch.sys 0 = .ok)) true w.σ.rt ⟨p, size, guard⟩ := by
    by_cases hg : w.σ.rt.free * 4 < w.σ.rt.total
    · have : ch.growRemap = .ok := by
        cases e : ch.growRemap with
        | ok => rfl
        | enomem => exact absurd e hf.1.1
        | other => exact absurd ⟨hg, Or.inr e⟩ hc
      rw [this]; rfl
    · unfold regionsInsert; rw [if_neg hg, if_neg hg]
  rw [hrm] at hr
  revert hr
  cases hri : regionsInsert hashPage ro.g.maxRegionTable (decide (ch.sys 0 = .ok)) true w.σ.rt ⟨p, size, guard⟩ with
  | ok o =>
    cases o with
    | none =>
      intro hr
      cases hr
      have hk : Keeps t w ⟨w.σ, G'⟩ := d.keeps hi (fun _ h => h) fun _ _ _ _ _ h => h
      exact ⟨b, hk.ok hb fun q hq => hb.B q (d.old hi (fun _ _ _ hr => ⟨_, _, hr⟩) (fun _ _ _ _ _ hs => hs) hq), fun _ _ _ _ _ hc => hc,
        fun w'' r => h2 w'' (hk.trans r.keeps)⟩
    | some rt' =>
      intro hr
      cases hr
      obtain ⟨hh, hnew⟩ := regionsInsert_has hi.rt hp hri d.inv.rt
      have hin := has_not_inSlab hro d.inv ((hh _).mpr (Or.inr rfl))
      have hno : w.G.blk p = .nobody := by
        by_contra hc
        rcases (hi.blk p).mp hc with ⟨a, c, i, k, hs⟩ | ⟨s, g, hr⟩
        · rw [hs.inSlab hro hi] at hin; cases hin
        · exact hnew _ hr rfl
      have hk := d.keeps hi (fun r h => (hh r).mpr (Or.inl h)) fun _ _ _ _ _ h => h
      refine ⟨⟨b.x, H0, fun q => b.B q ∨ q = p⟩, hk.ok hb fun q hq => ?_, fun _ K X hK hX hc pg hpg => ?_, fun w'' r => h1 w'' (hk.trans r.keeps) ?_⟩
      · by_cases e : q = p
        · exact Or.inr e
        · refine Or.inl (hb.B q ?_)
          rcases d.was hq with k | k
          · exact k
          · refine absurd k ((hi.blk q).mpr ?_)
            rcases (d.inv.blk q).mp (by rw [hq]; simp) with ⟨a, c, i, k, hs⟩ | ⟨s, g, hr⟩
            · exact Or.inl ⟨a, c, i, k, hs⟩
            · rcases (hh _).mp hr with hr | hr
              · exact Or.inr ⟨s, g, hr⟩
              · cases hr; exact absurd rfl e
      · rcases hc pg hpg with k | ⟨q, hq, hq0, k⟩ | k | k
        · exact Or.inl k
        · exact Or.inr (Or.inl ⟨q, (hh q).mpr (Or.inl hq), hq0, k⟩)
        · exact Or.inr (Or.inr (Or.inl k))
        · rcases hH pg k with k | k
          · exact Or.inr (Or.inr (Or.inr k))
          · refine Or.inr (Or.inl ⟨_, (hh _).mpr (Or.inr rfl), ?_, k⟩)
            rintro (e | e)
            · have e : p = b.x := e
              have := hb.x (by rw [← e]; exact hp)
              rw [← e, hno] at this; cases this
            · exact (hX p e).2 hno
      · exact r.keeps.reg _ (OwnR.own d (Or.inr hno) ((hh _).mpr (Or.inr rfl)))
  | fatal m => intro h; cases h
  | segv => intro h; cases h
  | ub _ => intro h; cases h
  | hang => intro h; cases h

/-- A region that leaves the table is held by the thread. -/
theorem LC.removeRegion (hro : RoOk ro) {p : Nat} {ex : Option Nat} {msg : String} {Q : Nat × Nat → World → Bag → Prop} (hx : b.x = 0)
    (h : ∀ (r : RegionMeta) w', w.σ.rt.Has r → r.p = p → RegOk r → (∀ q, OwnR t q w → q.p ≠ p → OwnR t q w') → (∀ q, w.σ.rt.Has q → q.p = p → q = r) →
      Q (r.size, r.guard) w' ⟨0, fun pg => b.H pg ∨ r.pages pg, fun q => b.B q ∧ q ≠ p⟩) :
    LC ro calm t (HM.removeRegion ro p ex msg) Q w b := by
  refine LC.critical fun ch e σ' e' y G' hf hi hb hr d => ?_
  rcases lookupRegion_spec hi p with ⟨i, r, g1, g2, g3, g4, g5⟩ | ⟨g1, g2⟩
  · rw [g1] at hr
    simp only at hr
    split at hr
    · cases hr
    · obtain ⟨rt', k1, k2, k3⟩ := regionsDelete_spec hi.rt g2 (by rw [g3]; exact g5.1)
      rw [show regionsDelete hashPage w.σ.rt i = _ from k1] at hr
      cases hr
      rw [show w.σ.rt.tab i = r from g3] at k3
      refine ⟨⟨0, fun pg => b.H pg ∨ r.pages pg, fun q => b.B q ∧ q ≠ p⟩, ⟨fun e => absurd rfl e, fun q hq => ?_⟩, fun _ K X hK hX hc pg hpg => ?_,
        fun w'' rl => h r w'' g5 g4 (hi.reg r g5) (fun q hq hqp => rl.keeps.reg _ ?_) fun q hq e => hi.has_unique hq g5 (e.trans g4.symm)⟩
      · refine ⟨hb.B q (d.old hi (fun s g p hr => ⟨s, g, ((k3 _).mp hr).1⟩) (fun _ _ _ _ _ hs => hs) hq), fun e => ?_⟩
        subst e
        rcases (d.inv.blk q).mp (by rw [hq]; simp) with ⟨a, c, j, k, hs⟩ | ⟨s, g, hr⟩
        · have := has_not_inSlab hro hi (p := r.p) (s := r.size) (g := r.guard) g5
          rw [g4, IsSmall.inSlab hro hi (show IsSmall ro w.σ q a c j k from hs)] at this
          cases this
        · obtain ⟨m1, m2⟩ := (k3 _).mp hr
          exact m2 (hi.has_unique m1 g5 g4.symm)
      · rw [hx] at hc
        rcases hc pg hpg with k | ⟨q, hq, hq0, k⟩ | k | k
        · exact Or.inl k
        · by_cases e : q = r
          · subst e; exact Or.inr (Or.inr (Or.inr (Or.inr k)))
          · exact Or.inr (Or.inl ⟨q, (k3 q).mpr ⟨hq, e⟩, hq0, k⟩)
        · exact Or.inr (Or.inr (Or.inl k))
        · exact Or.inr (Or.inr (Or.inr (Or.inl k)))
      · exact OwnR.own d (Or.inl hq.2) ((k3 q).mpr ⟨hq.1, fun e => hqp (by rw [e, g4])⟩)
  · rw [g1] at hr; cases hr

theorem LC.resizeRegion {r : RegionMeta} {n : Nat} {Q : Unit → World → Bag → Prop} (hx : b.x = r.p) (hr : OwnR t r w)
    (hH : calm = true → ∀ pg, b.H pg → RegionMeta.pages ⟨r.p, n, r.guard⟩ pg)
    (h : ∀ w', Q () w' ⟨0, noPage, b.B⟩) : LC ro calm t (HM.resizeRegion ro r.p r.size n) Q w b := by
  refine LC.critical fun ch e σ' e' y G' _ hi hb hf d => ?_
  rcases lookupRegion_spec hi r.p with ⟨i, r', h1, h2, h3, h4, h5⟩ | ⟨h1, h2⟩
  · rw [h1] at hf
    have er := hi.has_unique h5 hr.1 h4
    subst er
    obtain ⟨hinv, hres⟩ := hi.rt.resize h2 h3 h5.1 n
    cases hf
    refine ⟨⟨0, noPage, b.B⟩, ⟨fun e => absurd rfl e, fun q hq => hb.B q (d.old hi (fun s g p hr => ?_) (fun _ _ _ _ _ hs => hs) hq)⟩, fun ec K X hK hX hc pg hpg => ?_,
      fun w'' _ => h w''⟩
    · rcases (hres _).mp hr with hr | hr
      · exact ⟨s, g, hr.1⟩
      · cases hr; exact ⟨_, _, h5⟩
    · rw [hx] at hc
      rcases hc pg hpg with k | ⟨q, hq, hq0, k⟩ | k | k
      · exact Or.inl k
      · refine Or.inr (Or.inl ⟨q, (hres q).mpr (Or.inl ⟨hq, fun e => hq0 (Or.inl (by rw [e]))⟩), ?_, k⟩)
        rintro (e | e)
        · exact hq.1 e
        · exact hq0 (Or.inr e)
      · exact Or.inr (Or.inr (Or.inl k))
      · refine Or.inr (Or.inl ⟨_, (hres _).mpr (Or.inr rfl), ?_, hH ec pg k⟩)
        rintro (e | e)
        · exact h5.1 e
        · exact (hX _ e).1 hr.2
  · exact absurd rfl (h2 r hr.1)

/-! ### The quarantine of regions -/

theorem LC.quarantineRegion {v : Nat × Nat} {H : Nat → Prop} {Q : Option (Nat × Nat) → World → Bag → Prop} (hv : v.1 ≠ 0)
    (hH : ∀ pg, b.H pg → H pg ∨ inPages v.1 v.2 pg)
    (h : ∀ o w', Keeps t w w' → Q o w' { b with H := fun pg => H pg ∨ ∃ t', o = some t' ∧ inPages t'.1 t'.2 pg }) :
    LC ro calm t (HM.quarantineRegion ro v) Q w b := by
  refine LC.critical fun ch e σ' e' y G' _ hi hb hf d => ?_
  have hqi := hi.qi
  obtain ⟨a1, a2, a3⟩ := pushRegionRandom_spec (g := ro.g) (ch := ch) (σ := w.σ) hv
  have a4 : (pushRegionRandom ro.g ch w.σ v).1.sc = w.σ.sc := by unfold pushRegionRandom; split <;> rfl
  have hqi' : ro.g.regionQQueue ≠ 0 → (pushRegionRandom ro.g ch w.σ v).1.qi < ro.g.regionQQueue := by
    have : (pushRegionRandom ro.g ch w.σ v).1.qi = w.σ.qi := by unfold pushRegionRandom; split <;> rfl
    rw [this]; exact hqi
  -- the outcome of the section
  have main : σ'.rt = w.σ.rt ∧ σ'.sc = w.σ.sc ∧ σ'.vm = w.σ.vm ∧ ∀ pg, InRegionQ ro.g w.σ pg ∨ inPages v.1 v.2 pg →
      InRegionQ ro.g σ' pg ∨ ∃ t', y = some t' ∧ inPages t'.1 t'.2 pg := by
    simp only at hf
    generalize pushRegionRandom ro.g ch w.σ v = r1 at *
    obtain ⟨σ1, t1⟩ := r1
    simp only at a1 a2 a3 a4 hqi' hf
    by_cases h0 : t1.1 = 0
    · rw [if_pos h0] at hf
      cases hf
      refine ⟨a1, a4, a2, fun pg k => (a3 pg k).elim Or.inl fun k => absurd h0 k.1⟩
    · rw [if_neg h0] at hf
      obtain ⟨b1, b2, b3⟩ := pushRegionQueue_spec (g := ro.g) (σ := σ1) hqi' h0
      have b4 : (pushRegionQueue ro.g σ1 t1).1.sc = σ1.sc := by unfold pushRegionQueue; split <;> rfl
      generalize pushRegionQueue ro.g σ1 t1 = r2 at *
      obtain ⟨σ2, t2⟩ := r2
      simp only at b1 b2 b3 b4 hf
      cases hf
      refine ⟨b1.trans a1, b4.trans a4, b2.trans a2, fun pg k => ?_⟩
      have hq : InRegionQ ro.g σ1 pg ∨ inPages t1.1 t1.2 pg := (a3 pg k).imp id fun k => k.2
      rcases b3 pg hq with k | ⟨k1, k2⟩
      · exact Or.inl k
      · rw [if_neg k1]; exact Or.inr ⟨t2, rfl, k2⟩
  obtain ⟨e1, e2, e3, e4⟩ := main
  have hsm : ∀ p a c i k, IsSmall ro w.σ p a c i k ↔ IsSmall ro σ' p a c i k := fun p a c i k => by unfold IsSmall; rw [e2]
  have hk := d.keeps hi (fun r h => by rw [show (World.σ ⟨σ', G'⟩).rt = w.σ.rt from e1]; exact h) fun _ _ _ _ _ h => (hsm _ _ _ _ _).mp h
  refine ⟨{ b with H := fun pg => H pg ∨ ∃ t', y = some t' ∧ inPages t'.1 t'.2 pg }, hk.ok hb fun q hq => hb.B q (d.old hi ?_ (fun _ _ _ _ _ h => (hsm _ _ _ _ _).mpr h) hq),
    fun _ K X hK hX hc pg hpg => ?_, fun w'' r => h y w'' (hk.trans r.keeps)⟩
  · intro s g p hr
    rw [show (World.σ ⟨σ', G'⟩).rt = w.σ.rt from e1] at hr
    exact ⟨s, g, hr⟩
  · rw [e3] at hpg
    have hq : InRegionQ ro.g w.σ pg ∨ inPages v.1 v.2 pg → InRegionQ ro.g σ' pg ∨ (H pg ∨ ∃ t', y = some t' ∧ inPages t'.1 t'.2 pg) :=
      fun k => (e4 pg k).imp id Or.inr
    rcases hc pg hpg with k | k | k | k
    · exact Or.inl k
    · exact Or.inr (Or.inl (by rw [e1]; exact k))
    · exact Or.inr (Or.inr (hq (Or.inl k)))
    · rcases hH pg k with k | k
      · exact Or.inr (Or.inr (Or.inr (Or.inl k)))
      · exact Or.inr (Or.inr (hq (Or.inr k)))

theorem LC.quarantineDeallocatePages {p size guard : Nat} {H : Nat → Prop} {Q : Unit → World → Bag → Prop} (hp : p - guard ≠ 0) (hgp : guard ≤ p)
    (hH : ∀ pg, b.H pg → H pg ∨ Ext p size guard pg) (h : ∀ w' H', Keeps t w w' → (calm = true → ∀ pg, H' pg → H pg) → Q () w' { b with H := H' }) :
    LC ro calm t (HM.quarantineDeallocatePages ro p size guard) Q w b := by
  unfold HM.quarantineDeallocatePages
  by_cases hq : (!ro.g.regionQuarantine || decide (ro.g.regionQSkip ≤ size)) = true
  · rw [if_pos hq]
    exact LC.deallocatePages (H' := H) (fun pg k k' => (hH pg k).elim id fun k => absurd k k') fun w' k => h w' _ k fun _ _ k => k
  · rw [if_neg hq]
    have second : ∀ w1, Keeps t w w1 → LC ro calm t (do
        match ← HM.quarantineRegion ro (p - guard, size + guard * 2) with
        | none => return ()
        | some t => do
            let _ ← sysUnmap t.1 t.2
            return ()) Q w1 { b with H := fun pg => H pg ∨ Ext p size guard pg } := by
      intro w1 k1
      refine LC.andThen (LC.quarantineRegion (H := H) hp (fun _ k => k) fun o w2 k2 => ?_)
      cases o with
      | none =>
        refine LC.pure (h w2 _ (k1.trans k2) ?_)
        rintro - pg (k | ⟨t', k, _⟩)
        · exact k
        · cases k
      | some v =>
        refine LC.andThen (LC.unmap (H1 := H) (H2 := noPage) ?_ (fun w3 k3 => LC.pure (h w3 _ ((k1.trans k2).trans k3) fun _ _ k => k))
          fun hc w3 k3 => LC.pure (h w3 _ ((k1.trans k2).trans k3) fun _ _ k => k.elim))
        rintro - pg (k | ⟨t', k, k1⟩) k2
        · exact k
        · cases k; exact absurd k1 k2
    refine LC.andThen (LC.mapFixed (H1 := fun pg => H pg ∨ Ext p size guard pg) (H2 := fun pg => H pg ∨ Ext p size guard pg) ?_ second
      fun _ w1 k1 => LC.andThen (LC.purge fun _ w2 k2 => second w2 (k1.trans k2)))
    rintro pg (k | k)
    · exact hH pg k
    · right; unfold Ext inPages at *; omega

/-! ### Size classes -/

theorem isSmall_set {σ : St} {vm : Vm} {s' : SC} {a c q a' c' i k : Nat} :
    IsSmall ro { σ with vm := vm, sc := fun x y => if x = a ∧ y = c then s' else σ.sc x y } q a' c' i k ↔
      (a' = a ∧ c' = c ∧ a' < ro.g.nArena ∧ c' < nClasses ro.g ∧ q = slotAddr ro.g (ro.regionStart a' c') c' i k ∧ s'.live i k = true) ∨
      (¬ (a' = a ∧ c' = c) ∧ IsSmall ro σ q a' c' i k) := by
  unfold IsSmall
  by_cases e : a' = a ∧ c' = c
  · simp only [if_pos e]; tauto
  · simp only [if_neg e]; tauto

theorem LC.smallAlloc (hro : RoOk ro) {a n : Nat} {Q : Option Nat → World → Bag → Prop} (hn : n ≤ ro.g.maxSlab) (h0 : ∀ w', Keeps t w w' → Q none w' b)
    (h1 : ∀ p w', Keeps t w w' → p ≠ 0 → Q (some p) w' { b with B := fun q => b.B q ∨ q = p }) : LC ro calm t (HM.smallAlloc ro a n) Q w b := by
  have hc := clsOf_lt hn
  refine LC.critical fun ch e σ' e' y G' _ hi hb hf d => ?_
  simp only at hf
  split at hf
  · cases hf
  rename_i hbd
  have ha : a < ro.g.nArena := by omega
  obtain ⟨P, E, Fl, hinv⟩ := hi.cls a _ ha hc
  have hvm := hi.clsVm a _ ha hc
  have sp := allocateSmall_spec (ch := ch) (e := e) hro.valid (hro.base ha hc) hc (clsOf_zero hn) hinv hvm
  simp only [Cfg.clsOf] at hc hvm hinv sp
  generalize (getSizeInfo n).cls = c at *
  revert sp hf
  cases allocateSmall ro.g (ro.regionStart a c) c n ch (w.σ.sc a c) w.σ.vm e with
  | ok r =>
    obtain ⟨_ | p, s', vm', e1⟩ := r
    · intro hf
      rintro ⟨rfl, rfl, hs, -⟩
      cases hf
      have hsm : ∀ q a' c' i k, IsSmall ro { w.σ with sc := fun x y => if x = a ∧ y = c then s' else w.σ.sc x y } q a' c' i k ↔ IsSmall ro w.σ q a' c' i k := by
        intro q a' c' i k
        refine (isSmall_set (σ := w.σ) (vm := w.σ.vm)).trans ?_
        by_cases e : a' = a ∧ c' = c
        · obtain ⟨rfl, rfl⟩ := e
          unfold IsSmall SC.live
          rw [hs.used, hs.quar]
          tauto
        · tauto
      have hk := d.keeps hi (fun _ h => h) fun _ _ _ _ _ h => (hsm _ _ _ _ _).mpr h
      exact ⟨b, hk.ok hb fun q hq => hb.B q (d.old hi (fun _ _ _ hr => ⟨_, _, hr⟩) (fun _ _ _ _ _ hs => (hsm _ _ _ _ _).mp hs) hq), fun _ _ _ _ _ hc => hc,
        fun w'' r => h0 w'' (hk.trans r.keeps)⟩
    · intro hf
      rintro ⟨-, i, k, v, rfl, -, -, -, ht, hv, -⟩
      cases hf
      have hlive : ∀ i' k', s'.live i' k' = true → (w.σ.sc a c).live i' k' = true ∨ (i' = i ∧ k' = k) := by
        intro i' k' hl
        unfold SC.live at *
        rw [ht.used, ht.quar] at hl
        by_cases e : i' = i ∧ k' = k
        · exact Or.inr e
        · left
          rcases not_and_or.mp e with e | e <;> simpa [e] using hl
      have hlive' : ∀ i' k', (w.σ.sc a c).live i' k' = true → s'.live i' k' = true := by
        intro i' k' hl
        unfold SC.live at *
        rw [ht.used, ht.quar]
        simp only [Bool.and_eq_true, Bool.or_eq_true] at *
        exact ⟨Or.inl hl.1, hl.2⟩
      have hk := d.keeps hi (fun _ h => h) fun q a' c' i' k' h => isSmall_set.mpr (by
        by_cases e : a' = a ∧ c' = c
        · obtain ⟨rfl, rfl⟩ := e
          exact Or.inl ⟨rfl, rfl, h.1, h.2.1, h.2.2.1, hlive' _ _ h.2.2.2⟩
        · exact Or.inr ⟨e, h⟩)
      refine ⟨{ b with B := fun q => b.B q ∨ q = slotAddr ro.g (ro.regionStart a c) c i k }, hk.ok hb fun q hq => ?_, fun _ K X hK hX hcv pg hpg => ?_,
        fun w'' r => h1 _ w'' (hk.trans r.keeps) ?_⟩
      · by_cases e : q = slotAddr ro.g (ro.regionStart a c) c i k
        · exact Or.inr e
        · refine Or.inl (hb.B q ?_)
          rcases d.was hq with k | k
          · exact k
          · refine absurd k ((hi.blk q).mpr ?_)
            rcases (d.inv.blk q).mp (by rw [hq]; simp) with ⟨a', c', i', k', hs⟩ | hr
            · rcases isSmall_set.mp hs with ⟨rfl, rfl, m1, m2, m3, m4⟩ | hs
              · rcases hlive _ _ m4 with m4 | ⟨rfl, rfl⟩
                · exact Or.inl ⟨_, _, _, _, m1, m2, m3, m4⟩
                · exact absurd m3 e
              · exact Or.inl ⟨_, _, _, _, hs.2⟩
            · exact Or.inr hr
      · have hpg : vm'.prot pg ≠ .unmapped := hpg
        rw [hv.prot pg] at hpg
        split at hpg
        · rename_i hh; exact Or.inl (slab_page hro hK ha hc ht.imax hh.2.2)
        · exact hcv pg hpg
      · exact slotAddr_pos (hro.base ha hc) i k
  | fatal m => intro hf; cases hf
  | segv => intro hf; cases hf
  | ub _ => intro hf; cases hf
  | hang => intro hf; cases hf

theorem LC.smallFree (hro : RoOk ro) {p : Nat} {ex : Option Nat} {Q : Unit → World → Bag → Prop} (hp : p < W64) (hx : b.x = 0)
    (h : ∀ w', Q () w' { b with B := fun q => b.B q ∧ q ≠ p }) : LC ro calm t (HM.smallFree ro p ex) Q w b := by
  refine LC.critical fun ch e σ' e' y G' _ hi hb hf d => ?_
  simp only at hf
  split at hf
  · cases hf
  rename_i hbd
  generalize (ro.sizeClassOf p).1 = a at *
  generalize (ro.sizeClassOf p).2 = c at *
  have ha : a < ro.g.nArena := by omega
  have hc : c < nClasses ro.g := by omega
  obtain ⟨P, E, Fl, hinv⟩ := hi.cls a c ha hc
  have hvm := hi.clsVm a c ha hc
  have sp := deallocateSmall_spec (p := p) (expected := ex) (ch := ch) (e := e) hro.valid hro.freeQ (hro.base ha hc) hc hp hinv hvm
  revert sp hf
  cases deallocateSmall ro.g (ro.regionStart a c) c p ex ch (w.σ.sc a c) w.σ.vm e with
  | ok r =>
    obtain ⟨s', vm', e1⟩ := r
    intro hf
    rintro ⟨-, i, k, loc', ql', out, r, rfl, D⟩
    cases hf
    have hlv : (w.σ.sc a c).live i k = true := by unfold SC.live; rw [D.wasUsed, D.notQuar]; rfl
    have hsp : IsSmall ro w.σ (slotAddr ro.g (ro.regionStart a c) c i k) a c i k := ⟨ha, hc, rfl, hlv⟩
    have hsm : ∀ q a' c' i' k', IsSmall ro { w.σ with vm := vm', sc := fun x y => if x = a ∧ y = c then s' else w.σ.sc x y } q a' c' i' k' →
        IsSmall ro w.σ q a' c' i' k' ∧ q ≠ slotAddr ro.g (ro.regionStart a c) c i k := by
      intro q a' c' i' k' hs
      rcases isSmall_set.mp hs with ⟨rfl, rfl, m1, m2, m3, m4⟩ | ⟨hne, hs⟩
      · rw [D.live] at m4
        simp only [Bool.and_eq_true, Bool.not_eq_true', Bool.and_eq_false_iff, decide_eq_false_iff_not] at m4
        have hs : IsSmall ro w.σ q a' c' i' k' := ⟨m1, m2, m3, m4.1⟩
        refine ⟨hs, fun e => ?_⟩
        subst e
        obtain ⟨-, -, e1, e2⟩ := hsp.uniq hro hi hs
        rcases m4.2 with m | m
        · exact m e1
        · exact m e2
      · refine ⟨hs, fun e => ?_⟩
        subst e
        obtain ⟨e1, e2, -, -⟩ := hsp.uniq hro hi hs
        exact hne ⟨e1, e2⟩
    refine ⟨{ b with B := fun q => b.B q ∧ q ≠ slotAddr ro.g (ro.regionStart a c) c i k }, ⟨fun e => absurd hx e, fun q hq => ?_⟩, fun _ K X hK hX hcv pg hpg => ?_, fun w'' _ => h w''⟩
    · refine ⟨hb.B q (d.old hi (fun _ _ _ hr => ⟨_, _, hr⟩) (fun _ _ _ _ _ hs => (hsm _ _ _ _ _ hs).1) hq), fun e => ?_⟩
      rcases (d.inv.blk q).mp (by rw [hq]; simp) with ⟨a', c', i', k', hs⟩ | ⟨s, g, hr⟩
      · exact (hsm _ _ _ _ _ hs).2 e
      · have := has_not_inSlab hro hi (p := q) (s := s) (g := g) hr
        rw [e, hsp.inSlab hro hi] at this; cases this
    · have hpg : vm'.prot pg ≠ .unmapped := hpg
      rw [D.prot pg] at hpg
      split at hpg
      · rename_i hh
        obtain ⟨_, a', e1, e2⟩ := hh
        cases ho : out with
        | none => rw [ho] at e1; cases e1
        | some ab =>
          rw [ho] at e1
          cases e1
          exact Or.inl (slab_page hro hK ha hc (hinv.bits.used_meta (D.was ab.1 ab.2 ho).1).2 e2)
      · exact hcv pg hpg
  | fatal m => intro hf; cases hf
  | segv => intro hf; cases hf
  | ub _ => intro hf; cases hf
  | hang => intro hf; cases hf

theorem LC.smallTrim (hro : RoOk ro) {a c : Nat} {Q : Bool → World → Bag → Prop} (ha : a < ro.g.nArena) (hc : c < nClasses ro.g)
    (h : ∀ y w', Q y w' b) : LC ro calm t (HM.smallTrim ro a c) Q w b := by
  refine LC.critical fun ch e σ' e' y G' _ hi hb hf d => ?_
  obtain ⟨P, E, Fl, hinv⟩ := hi.cls a c ha hc
  have hvm := hi.clsVm a c ha hc
  have sp := trimClass_spec (ch := ch) (e := e) hro.valid hro.freeQ (hro.base ha hc) hc hinv hvm
  revert sp hf
  cases trimClass ro.g (ro.regionStart a c) c ch (w.σ.sc a c) w.σ.vm e with
  | ok r =>
    obtain ⟨b1, s', vm', e1⟩ := r
    intro hf
    rintro ⟨loc', T, vm1, -, -, h2, -, h4, -⟩
    cases hf
    have hlive : ∀ i k, s'.live i k = (w.σ.sc a c).live i k := by
      intro i k
      obtain ⟨n, p, e⟩ := h2.links.slabs i
      unfold SC.live SC.used SC.quar
      rw [e]
    have hsm : ∀ q a' c' i k, IsSmall ro { w.σ with vm := vm', sc := fun x y => if x = a ∧ y = c then s' else w.σ.sc x y } q a' c' i k ↔ IsSmall ro w.σ q a' c' i k := by
      intro q a' c' i k
      refine isSmall_set.trans ?_
      by_cases e : a' = a ∧ c' = c
      · obtain ⟨rfl, rfl⟩ := e
        unfold IsSmall
        rw [hlive]
        tauto
      · tauto
    have hk := d.keeps hi (fun _ h => h) fun _ _ _ _ _ h => (hsm _ _ _ _ _).mpr h
    refine ⟨b, hk.ok hb fun q hq => hb.B q (d.old hi (fun _ _ _ hr => ⟨_, _, hr⟩) (fun _ _ _ _ _ hs => (hsm _ _ _ _ _).mp hs) hq), fun _ K X hK hX hcv pg hpg => ?_,
        fun w'' r => h _ w''⟩
    have hpg : vm'.prot pg ≠ .unmapped := hpg
    rw [h4, h2.prot pg] at hpg
    split at hpg
    · rename_i hh
      obtain ⟨i, hT, hp⟩ := hh
      exact Or.inl (slab_page hro hK ha hc (hinv.rw_lt (by rw [show _ = _ from h2.empty i hT]; simp)) hp)
    · exact hcv pg hpg
  | fatal m => intro hf; cases hf
  | segv => intro hf; cases hf
  | ub _ => intro hf; cases hf
  | hang => intro hf; cases hf

/-! ### Large allocations -/

/-- Nothing is being resized, no page is held (if the system calls do not fail), and the blocks are at most `B`. -/
structure Clean (calm : Bool) (b : Bag) (B : Nat → Prop) : Prop where
  x : b.x = 0
  H : calm = true → ∀ pg, ¬ b.H pg
  B : ∀ p, b.B p → B p

theorem Clean.mono {B B' : Nat → Prop} (h : Clean calm b B) (k : ∀ p, B p → B' p) : Clean calm b B' := ⟨h.x, h.H, fun p q => k p (h.B p q)⟩

theorem LC.finishLarge (hro : RoOk ro) {size guard : Nat} {st : Bool} {p : Nat} {B H' : Nat → Prop} {Q : Option Nat → World → Bag → Prop}
    (hb : Clean calm b B) (hH : ∀ pg, H' pg → b.H pg ∨ Ext p size guard pg) (hp : guard + PAGE ≤ p)
    (h0 : ∀ w' b', Keeps t w w' → Clean calm b' B → Q none w' b')
    (h1 : ∀ w' b', Keeps t w w' → Clean calm b' (fun q => B q ∨ q = p) → OwnR t ⟨p, size, guard⟩ w' → Q (some p) w' b') :
    LC ro calm t (HM.finishLarge ro size guard st (some p)) Q w { b with H := H' } := by
  unfold HM.finishLarge
  refine LC.andThen (LC.insertRegion hro (H0 := b.H) (by omega) hH (fun w1 k1 o1 => LC.pure (h1 w1 _ k1 ⟨hb.x, hb.H, fun q k => k.imp_left (hb.B q)⟩ o1)) fun w1 k1 => ?_)
  rw [if_neg (by simp)]
  refine LC.andThen (LC.deallocatePages (H' := b.H) (fun pg k k' => (hH pg k).elim id fun k => absurd k k') fun w2 k2 => ?_)
  exact LC.pure (h0 w2 _ (k1.trans k2) ⟨hb.x, hb.H, hb.B⟩)

theorem LC.allocateLarge (hro : RoOk ro) {n : Nat} {B : Nat → Prop} {Q : Option Nat → World → Bag → Prop}
    (hb : Clean calm b B) (h0 : ∀ w' b', Keeps t w w' → Clean calm b' B → Q none w' b')
    (h1 : ∀ p gd w' b', Keeps t w w' → p ≠ 0 → Clean calm b' (fun q => B q ∨ q = p) → OwnR t ⟨p, getLargeSizeClass ro.g n, gd⟩ w' → Q (some p) w' b') :
    LC ro calm t (HM.allocateLarge ro n) Q w b := by
  unfold HM.allocateLarge
  simp only
  by_cases hz : getLargeSizeClass ro.g n = 0
  · rw [if_pos hz]
    exact LC.andThen (LC.setErrno fun w' k => LC.pure (h0 w' b k hb))
  rw [if_neg hz]
  refine LC.andThen (LC.drawGuard fun gd w1 k1 _ _ => ?_)
  refine LC.andThen (LC.allocatePages (by omega) (fun w2 k2 => LC.pure (h0 w2 b (k1.trans k2) hb)) fun p w2 H' k2 hp hH => ?_)
  exact LC.finishLarge hro hb hH hp (fun w3 b3 k3 c3 => h0 w3 b3 ((k1.trans k2).trans k3) c3)
    fun w3 b3 k3 c3 o3 => h1 p gd w3 b3 ((k1.trans k2).trans k3) (by omega) c3 o3

theorem LC.allocateOverAligned (hro : RoOk ro) {n e : Nat} {B : Nat → Prop} {Q : Option Nat → World → Bag → Prop} (hn : n < W64) (he : 12 ≤ e) (he' : e < 64)
    (hb : Clean calm b B) (h0 : ∀ w' b', Clean calm b' B → Q none w' b')
    (h1 : ∀ p w' b', p ≠ 0 → Clean calm b' (fun q => B q ∨ q = p) → Q (some p) w' b') :
    LC ro calm t (HM.allocateOverAligned ro (2 ^ e) n) Q w b := by
  unfold HM.allocateOverAligned
  simp only
  by_cases hz : getLargeSizeClass ro.g n = 0
  · rw [if_pos hz]
    exact LC.pure (h0 w b hb)
  rw [if_neg hz]
  refine LC.andThen (LC.drawGuard fun gd w1 k1 hg hg1 => ?_)
  refine LC.andThen (LC.allocatePagesAligned hg hg1 (getLargeSizeClass_ok ro.g hn hz).2.1 he he' (fun w2 k2 => LC.pure (h0 w2 b hb)) fun p w2 H' k2 hp hH => ?_)
  exact LC.finishLarge hro hb hH hp (fun w3 b3 k3 c3 => h0 w3 b3 c3)
    fun w3 b3 k3 c3 o3 => h1 p w3 b3 (by omega) c3

theorem LC.deallocateLarge (hro : RoOk ro) {p : Nat} {ex : Option Nat} {B : Nat → Prop} {Q : Unit → World → Bag → Prop}
    (hb : Clean calm b B) (h : ∀ w' b', Clean calm b' (fun q => B q ∧ q ≠ p) → Q () w' b') : LC ro calm t (HM.deallocateLarge ro p ex) Q w b := by
  unfold HM.deallocateLarge
  refine LC.andThen (LC.unseal fun w1 _ => LC.andThen (LC.removeRegion hro hb.x fun r w2 hr e hk _ _ => ?_))
  subst e
  have := hk.lo
  exact LC.quarantineDeallocatePages (H := b.H) (by omega) (by omega) (fun _ k => k) fun w3 H' _ k3 => h w3 _ ⟨rfl, fun hc pg k => hb.H hc pg (k3 hc pg k), fun q k => ⟨hb.B q k.1, k.2⟩⟩

/-! ### The API -/

theorem LC.allocate (hro : RoOk ro) {a n : Nat} {B : Nat → Prop} {Q : Option Nat → World → Bag → Prop}
    (hb : Clean calm b B) (h0 : ∀ w' b', Keeps t w w' → Clean calm b' B → Q none w' b')
    (h1 : ∀ p w' b', Keeps t w w' → p ≠ 0 → Clean calm b' (fun q => B q ∨ q = p) → Q (some p) w' b') : LC ro calm t (HM.allocate ro a n) Q w b := by
  unfold HM.allocate
  by_cases hn : n ≤ ro.g.maxSlab
  · rw [if_pos hn]
    exact LC.smallAlloc hro hn (fun w' k => h0 w' b k hb) fun p w' k hp => h1 p w' _ k hp ⟨hb.x, hb.H, fun q k => k.imp_left (hb.B q)⟩
  · rw [if_neg hn]
    exact LC.allocateLarge hro hb h0 fun p _ w' b' k hp c _ => h1 p w' b' k hp c

/-- What is left at the end of an allocation: at most the blocks `B` and the result. -/
def Leaves (calm : Bool) (B : Nat → Prop) (r : Option Nat) (_ : World) (b : Bag) : Prop :=
  Clean calm b (fun q => B q ∨ r = some q) ∧ r ≠ some 0

theorem Leaves.none {B : Nat → Prop} (h : Clean calm b B) : Leaves calm B none w b := ⟨h.mono fun _ k => Or.inl k, by simp⟩
theorem Leaves.some {B : Nat → Prop} {p : Nat} (hp : p ≠ 0) (h : Clean calm b (fun q => B q ∨ q = p)) : Leaves calm B (some p) w b :=
  ⟨h.mono fun _ k => k.imp_right fun k => by rw [k], by simpa using hp⟩

theorem LC.alloc (hro : RoOk ro) {a n : Nat} {B : Nat → Prop} (hb : Clean calm b B) : LC ro calm t (HM.alloc ro a n) (Leaves calm B) w b := by
  unfold HM.alloc
  refine LC.andThen (LC.unseal fun w1 _ => LC.andThen (LC.allocate hro hb ?_ ?_))
  · exact fun w2 b2 _ c2 => LC.andThen (LC.sealM fun w3 _ => LC.pure (Leaves.none c2))
  · exact fun p w2 b2 _ hp c2 => LC.andThen (LC.sealM fun w3 _ => LC.pure (Leaves.some hp c2))

/-- The same for the aligned functions. -/
def LeavesE (calm : Bool) (B : Nat → Prop) (r : Except Errno Nat) (w : World) (b : Bag) : Prop := Leaves calm B r.toOption w b

theorem LC.allocateAligned (hro : RoOk ro) {a al n mn : Nat} {B : Nat → Prop} (hb : Clean calm b B) (hn : n < W64) (hal : al < W64) (hmn : 0 < mn) :
    LC ro calm t (HM.allocateAligned ro a al n mn) (LeavesE calm B) w b := by
  unfold HM.allocateAligned
  by_cases h1 : (sub64 al 1 &&& al) ≠ 0 ∨ al < mn
  · rw [if_pos h1]; exact LC.pure (Leaves.none hb)
  rw [if_neg h1]
  simp only [not_or, not_not, Nat.not_lt] at h1
  obtain ⟨k, hk, rfl⟩ := pow_of_mask hal (by omega) h1.1
  have hA : ∀ n, LC ro calm t (do match ← HM.allocate ro a n with
          | none => return Except.error ENOMEM
          | some p => return .ok p) (LeavesE calm B) w b := fun n =>
    LC.andThen (LC.allocate hro hb (fun w2 b2 _ c2 => LC.pure (Leaves.none c2)) fun p w2 b2 _ hp c2 => LC.pure (Leaves.some hp c2))
  by_cases h2 : (2 : Nat) ^ k ≤ PAGE
  · rw [if_pos h2]
    by_cases h3 : n ≤ ro.g.maxSlab ∧ 16 < (2 : Nat) ^ k
    · rw [if_pos h3]
      cases getSizeInfoAlign ro.g n (2 ^ k) with
      | none => exact LC.die
      | some i => exact hA _
    · rw [if_neg h3]; exact hA _
  · rw [if_neg h2]
    have h12 : 12 ≤ k := by
      by_contra hh
      exact h2 (Nat.pow_le_pow_right (by decide) (by omega : k ≤ 12))
    exact LC.andThen (LC.allocateOverAligned hro hn h12 hk hb (fun w2 b2 c2 => LC.pure (Leaves.none c2)) fun p w2 b2 hp c2 => LC.pure (Leaves.some hp c2))

theorem LC.allocAligned (hro : RoOk ro) {a al n mn : Nat} {B : Nat → Prop} (hb : Clean calm b B) (hn : n < W64) (hal : al < W64) (hmn : 0 < mn) :
    LC ro calm t (HM.allocAligned ro a al n mn) (LeavesE calm B) w b := by
  unfold HM.allocAligned
  refine LC.andThen (LC.unseal fun w1 _ => LC.andThen ((LC.allocateAligned hro hb (adjust_lt hn) hal hmn).mono fun r w2 b2 h2 => ?_))
  exact LC.andThen (LC.sealM fun w3 _ => LC.pure h2)

theorem LC.allocAlignedSimple (hro : RoOk ro) {a al n : Nat} {B : Nat → Prop} (hb : Clean calm b B) (hn : n < W64) (hal : al < W64) :
    LC ro calm t (HM.allocAlignedSimple ro a al n) (Leaves calm B) w b := by
  unfold HM.allocAlignedSimple
  refine LC.andThen ((LC.allocAligned hro hb hn hal (by decide)).mono fun r w2 b2 h2 => ?_)
  cases r with
  | error e => exact LC.andThen (LC.setErrno fun w3 _ => LC.pure h2)
  | ok p => exact LC.pure h2

theorem LC.hCalloc (hro : RoOk ro) {a n k : Nat} {B : Nat → Prop} (hb : Clean calm b B) : LC ro calm t (HM.hCalloc ro a n k) (Leaves calm B) w b := by
  unfold HM.hCalloc
  split
  · exact LC.andThen (LC.setErrno fun w1 _ => LC.pure (Leaves.none hb))
  · simp only
    refine LC.andThen ((LC.alloc hro hb).mono fun r w1 b1 h1 => ?_)
    cases r with
    | none => exact LC.pure h1
    | some p =>
      simp only
      split
      · exact LC.andThen (LC.memZero fun _ _ => LC.pure h1)
      · exact LC.pure h1

theorem LC.reallocCopy (hro : RoOk ro) {a old os n : Nat} (hb : Clean calm b (fun q => q = old)) (hp : old < W64) :
    LC ro calm t (HM.reallocCopy ro a old os n) (fun r _ b' => r ≠ some 0 ∧ Clean calm b' (fun q => q = r.getD old)) w b := by
  unfold HM.reallocCopy
  refine LC.andThen (LC.allocate hro hb ?_ ?_)
  · exact fun w1 b1 _ c1 => LC.andThen (LC.sealM fun w2 _ => LC.pure ⟨by simp, c1⟩)
  · intro q w1 b1 _ hq c1
    refine LC.andThen (LC.memCopy fun w2 _ => ?_)
    have fin : ∀ w3 b3, Clean calm b3 (fun p => (p = old ∨ p = q) ∧ p ≠ old) →
        LC ro calm t (do HM.sealMeta; return some q) (fun r _ b' => r ≠ some 0 ∧ Clean calm b' (fun q => q = r.getD old)) w3 b3 := fun w3 b3 c3 =>
      LC.andThen (LC.sealM fun w4 _ => LC.pure ⟨by simpa using hq, c3.mono fun p k => k.1.resolve_left k.2⟩)
    split
    · exact LC.andThen (LC.smallFree hro hp c1.x fun w3 => fin w3 _ ⟨c1.x, c1.H, fun p k => ⟨c1.B p k.1, k.2⟩⟩)
    · exact LC.andThen (LC.deallocateLarge hro c1 fun w3 b3 c3 => fin w3 b3 c3)

/-- Taking back pages of a region of the thread: from now on the call accounts for its pages. -/
theorem LC.mapFixedTake {a n : Nat} {r : RegionMeta} {H1 : Nat → Prop} {Q : Bool → World → Bag → Prop} (hr : OwnR t r w) (hx : b.x = 0)
    (hH : ∀ pg, b.H pg ∨ r.pages pg ∨ inPages a n pg → H1 pg) (h : ∀ w', Keeps t w w' → Q false w' ⟨r.p, H1, b.B⟩)
    (h' : calm = false → ∀ w', Keeps t w w' → Q true w' b) : LC ro calm t (sysMapFixed a n) Q w b := by
  refine LC.vm fun ch tl σ' tl' y h1 hi h4 => ?_
  have hcov : ∀ K X : Nat → Prop, Covers ro.g K (fun p => p = b.x ∨ X p) b.H w.σ → Covers ro.g K (fun p => p = r.p ∨ X p) (fun pg => b.H pg ∨ r.pages pg) w.σ := by
    intro K X hc pg hp
    rcases hc pg hp with k | ⟨q, hq, hq0, k⟩ | k | k
    · exact Or.inl k
    · by_cases e : q.p = r.p
      · rw [hi.has_unique hq hr.1 e] at k; exact Or.inr (Or.inr (Or.inr (Or.inr k)))
      · exact Or.inr (Or.inl ⟨q, hq, fun e' => e'.elim e fun e' => hq0 (Or.inr e'), k⟩)
    · exact Or.inr (Or.inr (Or.inl k))
    · exact Or.inr (Or.inr (Or.inr (Or.inl k)))
  dsimp only at h4
  revert h4
  cases e : memoryMapFixed w.σ.vm (ch.sys 0) a n with
  | ok v =>
    obtain ⟨vm, b1⟩ := v
    intro h4
    cases h4
    refine ⟨⟨vm, rfl⟩, ?_⟩
    unfold memoryMapFixed at e
    split at e
    · cases e
    · cases es : ch.sys 0 with
      | ok =>
        rw [es] at e; cases e
        refine ⟨r.p, H1, fun _ => hr.2, fun _ K X hK hX hc pg k => ?_, h⟩
        by_cases hp : inPages a n pg
        · exact Or.inr (Or.inr (Or.inr (hH pg (Or.inr (Or.inr hp)))))
        · rcases hcov K X hc pg (fun e => k ((if_neg hp).trans e)) with k | k | k | k
          · exact Or.inl k
          · exact Or.inr (Or.inl k)
          · exact Or.inr (Or.inr (Or.inl k))
          · exact Or.inr (Or.inr (Or.inr (hH pg (k.imp_right Or.inl))))
      | enomem =>
        rw [es] at e; cases e
        have hc := not_calm h1 es
        exact ⟨b.x, b.H, fun e => absurd hx e, fun e => absurd (hc.symm.trans e) (by simp), h' hc⟩
      | other => rw [es] at e; cases e
  | fatal m => intro h; cases h
  | segv => intro h; cases h
  | ub _ => intro h; cases h
  | hang => intro h; cases h

theorem LC.reallocShrink {r : RegionMeta} {n : Nat} (hr : OwnR t r w) (hrk : RegOk r) (hb : Clean calm b (fun q => q = r.p))
    (hn : n % PAGE = 0) (h1 : 16384 < n) (h2 : n < r.size) :
    LC ro calm t (HM.reallocShrink ro r.p r.size r.guard n) (fun o _ b' => o ≠ some 0 ∧ Clean calm b' (fun q => q = o.getD r.p)) w b := by
  have hs := hrk.big (by omega)
  have k1 := hrk.pmod
  have k2 := hrk.gmod
  have k3 := hrk.lo
  have k4 := hrk.gpos
  unfold HM.reallocShrink
  refine LC.andThen (LC.mapFixedTake (H1 := fun pg => b.H pg ∨ RegionMeta.pages ⟨r.p, n, r.guard⟩ pg ∨ Ext (r.p + n + r.guard) (r.size - n) 0 pg) hr hb.x ?_ ?_ ?_)
  · unfold RegionMeta.pages Ext inPages
    rintro pg (k | k)
    · exact Or.inl k
    · right
      simp only
      omega
  · intro w1 c1
    rw [if_neg (by simp)]
    refine LC.andThen (LC.quarantineDeallocatePages (H := fun pg => b.H pg ∨ RegionMeta.pages ⟨r.p, n, r.guard⟩ pg) (by omega) (by omega)
      (fun pg k => by tauto) fun w2 H' c2 hH => ?_)
    refine LC.andThen (LC.resizeRegion rfl (c2.reg _ (c1.reg _ hr)) (fun hc pg k => (hH hc pg k).resolve_left (hb.H hc pg)) fun w3 => ?_)
    exact LC.andThen (LC.sealM fun w4 _ => LC.pure ⟨by simpa using hr.1.1, rfl, fun _ _ k => k, hb.B⟩)
  · exact fun _ w1 c1 => LC.andThen (LC.sealM fun w2 _ => LC.pure ⟨by simp, hb⟩)

/-- The pages of a new region of the thread are accounted for. -/
theorem LC.remapInto {old oldSize new newSize m gd : Nat} {H1 H2 : Nat → Prop} {Q : Bool → World → Bag → Prop} (ho : OwnR t ⟨new, m, gd⟩ w) (hm : newSize ≤ m)
    (hx : b.x = 0) (hH : ∀ pg, b.H pg → ¬ inPages old oldSize pg → H1 pg)
    (h : ∀ w', Keeps t w w' → Q false w' { b with H := H1 }) (h' : calm = false → ∀ w', Keeps t w w' → Q true w' { b with H := H2 }) :
    LC ro calm t (sysRemap old oldSize new newSize) Q w b := by
  refine LC.vm fun ch tl σ' tl' y h1 hi h4 => ?_
  dsimp only at h4
  revert h4
  cases e : memoryRemapFixed w.σ.vm (ch.sys 0) old oldSize new newSize with
  | ok v =>
    obtain ⟨vm, b1⟩ := v
    intro h4
    cases h4
    refine ⟨⟨vm, rfl⟩, ?_⟩
    unfold memoryRemapFixed at e
    split at e
    · cases e
    · cases es : ch.sys 0 with
      | ok =>
        rw [es] at e; cases e
        refine ⟨b.x, H1, fun e => absurd hx e, fun _ K X hK hX hc pg k => ?_, h⟩
        simp only at k
        by_cases hp : inPages new newSize pg
        · refine Or.inr (Or.inl ⟨_, ho.1, ?_, ?_⟩)
          · rintro (e | e)
            · exact ho.1.1 (by rw [hx] at e; exact e)
            · exact (hX _ e).1 ho.2
          · have k4 := (hi.reg _ ho.1).pmod
            have k5 := (hi.reg _ ho.1).gmod
            have k6 := (hi.reg _ ho.1).lo
            unfold RegionMeta.pages inPages at *
            simp only at *
            omega
        · rw [if_neg hp] at k
          by_cases hq : inPages old oldSize pg
          · rw [if_pos hq] at k; exact absurd rfl k
          · rw [if_neg hq] at k
            rcases hc pg k with k | k | k | k
            · exact Or.inl k
            · exact Or.inr (Or.inl k)
            · exact Or.inr (Or.inr (Or.inl k))
            · exact Or.inr (Or.inr (Or.inr (hH pg k hq)))
      | enomem =>
        rw [es] at e; cases e
        have hc := not_calm h1 es
        exact ⟨b.x, H2, fun e => absurd hx e, fun e => absurd (hc.symm.trans e) (by simp), h' hc⟩
      | other => rw [es] at e; cases e
  | fatal m => intro h; cases h
  | segv => intro h; cases h
  | ub _ => intro h; cases h
  | hang => intro h; cases h

/-- What is left at the end of `realloc`: the result or, if it fails, the old block. -/
def LeavesR (calm : Bool) (old : Nat) (r : Option Nat) (_ : World) (b : Bag) : Prop := r ≠ some 0 ∧ Clean calm b (fun q => q = r.getD old)

theorem LC.reallocMove (hro : RoOk ro) {r : RegionMeta} {n : Nat} (hr : OwnR t r w) (hrk : RegOk r) (hb : Clean calm b (fun q => q = r.p))
    (hn : n < W64) (h0 : getLargeSizeClass ro.g n ≠ 0) (hlt : r.size < n) :
    LC ro calm t (HM.reallocMove ro r.p r.size r.guard n) (LeavesR calm r.p) w b := by
  have k1 := hrk.pmod
  have k2 := hrk.gmod
  have k3 := hrk.lo
  have k4 := hrk.gpos
  have k5 := hrk.hi
  have hge := (getLargeSizeClass_ok ro.g hn h0).1
  unfold HM.reallocMove
  refine LC.andThen (LC.allocateLarge hro hb ?_ ?_)
  · exact fun w1 b1 _ c1 => LC.andThen (LC.sealM fun w2 _ => LC.pure ⟨by simp, c1⟩)
  · intro q gd w1 b1 c1 hq cl1 o1
    refine LC.andThen (LC.removeRegion hro cl1.x fun r' w2 g1 g2 _ g4 g5 => ?_)
    have er := g5 r (c1.reg r hr).1 rfl
    subst er
    have hne : q ≠ r.p := fun e => by
      have := g5 _ o1.1 e
      have : r.size = getLargeSizeClass ro.g n := by rw [← this]
      omega
    have o2 := g4 _ o1 hne
    have fin : ∀ w3 H3, (calm = true → ∀ pg, ¬ H3 pg) → LC ro calm t (do HM.sealMeta; return some q) (LeavesR calm r.p) w3 ⟨0, H3, fun q => b1.B q ∧ q ≠ r.p⟩ := fun w3 H3 hH =>
      LC.andThen (LC.sealM fun w4 _ => LC.pure ⟨by simpa using hq, rfl, hH, fun p k => (cl1.B p k.1).resolve_left k.2⟩)
    refine LC.andThen (LC.remapInto (H1 := fun pg => b1.H pg ∨ (r.pages pg ∧ ¬ inPages r.p r.size pg)) (H2 := noPage) o2 hge rfl ?_ ?_ ?_)
    · rintro pg (k | k) k'
      · exact Or.inl k
      · exact Or.inr ⟨k, k'⟩
    · intro w3 c3
      rw [if_neg (by simp)]
      have last : ∀ w4 H4, (calm = true → ∀ pg, H4 pg → b1.H pg ∨ ((r.pages pg ∧ ¬ inPages r.p r.size pg) ∧ ¬ inPages (r.p - r.guard) r.guard pg)) →
          LC ro calm t (do
            let _ ← sysUnmap (r.p + pageAlign r.size) r.guard
            HM.sealMeta
            return some q) (LeavesR calm r.p) w4 ⟨0, H4, fun q => b1.B q ∧ q ≠ r.p⟩ := by
        intro w4 H4 hH4
        refine LC.andThen (LC.unmap (H1 := fun pg => calm = true ∧ H4 pg ∧ ¬ inPages (r.p + pageAlign r.size) r.guard pg) (H2 := noPage) (fun hc pg k k' => ⟨hc, k, k'⟩) (fun w5 _ => fin w5 _ ?_) fun _ w5 _ => fin w5 _ fun _ _ k => k)
        rintro hc pg ⟨-, m, c4⟩
        rcases hH4 hc pg m with m | ⟨⟨m1, m2⟩, m3⟩
        · exact cl1.H hc pg m
        · rw [pageAlign_of_lt (by unfold pageUp at k5; omega)] at c4
          unfold RegionMeta.pages at m1
          unfold pageUp inPages at *
          omega
      refine LC.andThen (LC.unmap (H1 := fun pg => b1.H pg ∨ ((r.pages pg ∧ ¬ inPages r.p r.size pg) ∧ ¬ inPages (r.p - r.guard) r.guard pg)) (H2 := noPage) ?_
        (fun w4 _ => last w4 _ fun _ _ k => k) fun _ w4 _ => last w4 _ fun _ _ k => k.elim)
      rintro - pg (k | k) k'
      · exact Or.inl k
      · exact Or.inr ⟨k, k'⟩
    · intro hc w3 c3
      rw [if_pos rfl]
      refine LC.andThen (LC.memCopy fun w4 _ => LC.andThen (LC.deallocatePages (H' := noPage) (fun pg k => k.elim) fun w5 _ => fin w5 _ fun _ _ k => k))

theorem LC.reallocLarge (hro : RoOk ro) {a old n : Nat} (hbk : w.G.blk old = .thr t) (hb : Clean calm b (fun q => q = old)) (hp : old < W64) (hn : n < W64)
    (h1 : ro.g.maxSlab < n → getLargeSizeClass ro.g n ≠ 0 ∧ n % PAGE = 0) :
    LC ro calm t (HM.reallocLarge ro a old n) (LeavesR calm old) w b := by
  have hms : 16384 ≤ ro.g.maxSlab := by rcases maxSlab_cases ro.g with ⟨_, e⟩ | ⟨_, e⟩ <;> omega
  unfold HM.reallocLarge
  refine LC.andThen (LC.unseal fun w1 c1 => LC.andThen (LC.findRegion (c1.blk _ hbk) fun r w2 _ hr e hrk => ?_))
  subst e
  simp only
  split
  · exact LC.andThen (LC.sealM fun w3 _ => LC.pure ⟨by simpa using hr.1.1, hb⟩)
  rename_i hne
  split
  · rename_i c
    exact LC.reallocShrink hr hrk hb (h1 c.1).2 (by omega) c.2
  rename_i hc
  split
  · rename_i c
    exact LC.reallocMove hro hr hrk hb hn (h1 c.1).1 (by omega)
  · exact LC.reallocCopy hro hb hp

theorem LC.reallocSized (hro : RoOk ro) {a old n : Nat} (hbk : w.G.blk old = .thr t) (hb : Clean calm b (fun q => q = old)) (h0 : old ≠ 0) (hp : old < W64) (hn : n < W64)
    (h1 : ro.g.maxSlab < n → getLargeSizeClass ro.g n ≠ 0 ∧ n % PAGE = 0) :
    LC ro calm t (HM.reallocSized ro a old n) (LeavesR calm old) w b := by
  unfold HM.reallocSized
  split
  · simp only
    split
    · exact LC.pure ⟨by simpa using h0, hb⟩
    · exact LC.andThen (LC.unseal fun w1 _ => LC.reallocCopy hro hb hp)
  · exact LC.reallocLarge hro hbk hb hp hn h1

theorem LC.hRealloc (hro : RoOk ro) {a old n : Nat} (hbk : old ≠ 0 → w.G.blk old = .thr t) (hb : Clean calm b (fun q => old ≠ 0 ∧ q = old)) (hp : old < W64) (hn : n < W64) :
    LC ro calm t (HM.hRealloc ro a old n) (fun r _ b' => r ≠ some 0 ∧ Clean calm b' (fun q => q ≠ 0 ∧ q = r.getD old)) w b := by
  have hadj := adjust_lt (g := ro.g) hn
  have hms : 16384 ≤ ro.g.maxSlab := by rcases maxSlab_cases ro.g with ⟨_, e⟩ | ⟨_, e⟩ <;> omega
  unfold HM.hRealloc
  simp only
  split
  · rename_i h0
    refine (LC.alloc hro hb).mono fun r w1 b1 h1 => ⟨h1.2, h1.1.mono ?_⟩
    rintro q (k | k)
    · exact absurd h0 k.1
    · rw [k]; exact ⟨fun e => h1.2 (by rw [k, e]), rfl⟩
  rename_i h0
  have hb' := hb.mono (B' := fun q => q = old) fun _ k => k.2
  have hpost : ∀ r w1 b1, LeavesR calm old r w1 b1 → r ≠ some 0 ∧ Clean calm b1 (fun q => q ≠ 0 ∧ q = r.getD old) := fun r w1 b1 h =>
    ⟨h.1, h.2.mono fun q k => ⟨by
      cases r with
      | none => rw [k]; exact h0
      | some x => intro e; rw [e] at k; exact h.1 (by rw [show x = 0 from k.symm]), k⟩⟩
  split
  · rename_i hbig
    split
    · exact LC.andThen (LC.setErrno fun w1 _ => LC.pure (hpost none w1 _ ⟨by simp, hb'⟩))
    · rename_i hz
      obtain ⟨k1, k2, k3⟩ := getLargeSizeClass_ok ro.g hadj hz
      have hid := c15_idempotent ro.g _ (by omega) hadj hz
      exact (LC.reallocSized hro (hbk h0) hb' h0 hp k2 fun _ => ⟨by rw [hid]; exact hz, k3 (by omega)⟩).mono hpost
  · rename_i hbig
    exact (LC.reallocSized hro (hbk h0) hb' h0 hp hadj fun hc => absurd hc hbig).mono hpost

theorem LC.hFree (hro : RoOk ro) {p : Nat} (hb : Clean calm b (fun q => p ≠ 0 ∧ q = p)) (hp : p < W64) :
    LC ro calm t (HM.hFree ro p) (fun _ _ b' => Clean calm b' noPage) w b := by
  unfold HM.hFree
  split
  · rename_i h0; exact LC.pure (hb.mono fun _ k => k.1 h0)
  split
  · refine LC.andThen (LC.unseal fun w1 _ => LC.andThen (LC.smallFree hro hp hb.x fun w2 => LC.sealM fun w3 _ => ⟨hb.x, hb.H, fun q k => k.2 (hb.B q k.1).2⟩))
  · refine LC.andThen (LC.getErrno fun e w1 _ => LC.andThen (LC.deallocateLarge hro hb fun w2 b2 c2 => ?_))
    exact LC.andThen (LC.setErrno fun w3 _ => LC.sealM fun w4 _ => c2.mono fun q k => k.2 k.1.2)

theorem LC.hFreeSized (hro : RoOk ro) {p n : Nat} (hb : Clean calm b (fun q => p ≠ 0 ∧ q = p)) (hp : p < W64) :
    LC ro calm t (HM.hFreeSized ro p n) (fun _ _ b' => Clean calm b' noPage) w b := by
  unfold HM.hFreeSized
  split
  · rename_i h0; exact LC.pure (hb.mono fun _ k => k.1 h0)
  simp only
  split
  · refine LC.andThen (LC.unseal fun w1 _ => LC.andThen (LC.smallFree hro hp hb.x fun w2 => LC.sealM fun w3 _ => ⟨hb.x, hb.H, fun q k => k.2 (hb.B q k.1).2⟩))
  · exact LC.andThen (LC.deallocateLarge hro hb fun w2 b2 c2 => LC.sealM fun w4 _ => c2.mono fun q k => k.2 k.1.2)

theorem LC.trimClasses (hro : RoOk ro) {a : Nat} (ha : a < ro.g.nArena) {Q : Bool → World → Bag → Prop} (n : Nat) : ∀ {w : World} {c : Nat} {y : Bool}, c + n ≤ nClasses ro.g →
    (∀ y w', Q y w' b) → LC ro calm t (HM.trimClasses ro a n c y) Q w b := by
  induction n with
  | zero => exact fun _ h => LC.pure (h _ _)
  | succ n ih => exact fun hc h => LC.andThen (LC.smallTrim hro ha (by omega) fun y w' => ih (by omega) h)

theorem LC.trimArenas (hro : RoOk ro) {Q : Bool → World → Bag → Prop} (n : Nat) : ∀ {w : World} {a : Nat} {y : Bool}, a + n ≤ ro.g.nArena →
    (∀ y w', Q y w' b) → LC ro calm t (HM.trimArenas ro n a y) Q w b := by
  have hpos : 1 ≤ nClasses ro.g := by unfold nClasses; cases ro.g.extended <;> decide
  induction n with
  | zero => exact fun _ h => LC.pure (h _ _)
  | succ n ih => exact fun ha h => LC.andThen (LC.trimClasses hro (by omega) _ (by omega) fun y w' => ih (by omega) h)

theorem LC.sumClasses {a : Nat} {Q : Nat × Nat → World → Bag → Prop} (n : Nat) : ∀ {w : World} {c : Nat} {y : Nat × Nat},
    (∀ y w', Q y w' b) → LC ro calm t (HM.sumClasses ro a n c y) Q w b := by
  induction n with
  | zero => exact fun h => LC.pure (h _ _)
  | succ n ih => exact fun h => LC.andThen (LC.readClassStats fun y w' _ => ih h)

theorem LC.sumArenas {Q : Nat × Nat → World → Bag → Prop} (n : Nat) : ∀ {w : World} {a : Nat} {y : Nat × Nat},
    (∀ y w', Q y w' b) → LC ro calm t (HM.sumArenas ro n a y) Q w b := by
  induction n with
  | zero => exact fun h => LC.pure (h _ _)
  | succ n ih => exact fun h => LC.andThen (LC.sumClasses _ fun y w' => ih h)

theorem LC.lookup {p : Nat} {msg : String} {Q : Nat × Nat → World → Bag → Prop} (h : ∀ y w', Q y w' b) : LC ro calm t (HM.findRegion ro p msg) Q w b :=
  LC.reads (fun ch e σ' e' b hf => by
    split at hf
    · cases hf; rfl
    all_goals cases hf) fun _ _ _ _ y _ _ w' _ => h y w'

/-- The block `hd` is the one that call `c` is given. -/
def Call.lent (hd : Option (Nat × Info)) : Call → Prop
  | .free p => (p = 0 ∧ hd = none) ∨ (p ≠ 0 ∧ ∃ i, hd = some (p, i))
  | .freeSized p _ => (p = 0 ∧ hd = none) ∨ (p ≠ 0 ∧ ∃ i, hd = some (p, i))
  | .realloc p _ => (p = 0 ∧ hd = none) ∨ (p ≠ 0 ∧ ∃ i, hd = some (p, i))
  | .usableSize _ => True
  | .objectSize _ => True
  | _ => hd = none

/-- Every call: at the end the thread has at most the block that it gives to the application, it holds no pages (if the system
calls do not fail) and resizes nothing. -/
theorem LC.call (hro : RoOk ro) {a : Nat} {c : Call} {hd : Option (Nat × Info)} (hok : c.Ok) (hb : Clean calm b (fun q => ∃ i, hd = some (q, i)))
    (hbk : ∀ q i, hd = some (q, i) → w.G.blk q = .thr t) (hhd : c.lent hd) :
    LC ro calm t (c.prog ro a) (fun r _ b' => Clean calm b' (fun q => ∃ i, c.gives hd r = some (q, i))) w b := by
  have hnone : hd = none → Clean calm b noPage := fun e => hb.mono fun q ⟨i, k⟩ => by rw [e] at k; cases k
  have hgot : ∀ {r : Option Nat} {w1 : World} {b1 : Bag} {i : Info}, c.request = some i → c.gives hd (retPtr r) = (match c.request, (retPtr r).block with
      | some i, some q => some (q, i)
      | _, _ => none) → Leaves calm noPage r w1 b1 → Clean calm b1 (fun q => ∃ i, c.gives hd (retPtr r) = some (q, i)) := by
    intro r w1 b1 i hr hg h
    refine h.1.mono ?_
    rintro q (k | k)
    · exact k.elim
    · rw [hg, hr, k]
      have : q ≠ 0 := fun e => h.2 (by rw [k, e])
      exact ⟨i, by simp [retPtr, Ret.block, this]⟩
  have hptr : ∀ {p : Nat}, ((p = 0 ∧ hd = none) ∨ (p ≠ 0 ∧ ∃ i, hd = some (p, i))) → Clean calm b (fun q => p ≠ 0 ∧ q = p) ∧ (p ≠ 0 → w.G.blk p = .thr t) := by
    rintro p (⟨h0, e⟩ | ⟨h0, i, e⟩)
    · exact ⟨(hnone e).mono fun _ k => k.elim, fun k => absurd h0 k⟩
    · refine ⟨hb.mono ?_, fun _ => hbk p i e⟩
      rintro q ⟨j, k⟩
      rw [e] at k; cases k; exact ⟨h0, rfl⟩
  cases c with
  | malloc n => exact LC.andThen ((LC.alloc hro (hnone hhd)).mono fun _ _ _ h => LC.pure (hgot rfl rfl h))
  | calloc n k => exact LC.andThen ((LC.hCalloc hro (hnone hhd)).mono fun _ _ _ h => LC.pure (hgot rfl rfl h))
  | realloc p n =>
    obtain ⟨h1, h2⟩ := hptr hhd
    refine LC.andThen ((LC.hRealloc hro h2 h1 hok.1 hok.2).mono fun r w1 b1 h => LC.pure (h.2.mono ?_))
    rintro q ⟨k0, k⟩
    have hhd : (p = 0 ∧ hd = none) ∨ (p ≠ 0 ∧ ∃ i, hd = some (p, i)) := hhd
    cases r with
    | none =>
      have k : q = p := k
      subst k
      rcases hhd with ⟨e, _⟩ | ⟨_, i, e⟩
      · exact absurd e k0
      · exact ⟨i, by simp [Call.gives, retPtr, Ret.block, e]⟩
    | some x =>
      have k : q = x := k
      subst k
      have e : (retPtr (some q)).block = some q := if_neg k0
      unfold Call.gives
      simp only [e]
      exact ⟨_, rfl⟩
  | posixMemalign al n =>
    refine LC.andThen ((LC.allocAligned hro (hnone hhd) hok.2 hok.1 (by decide)).mono fun r w1 b1 h => LC.pure (h.1.mono ?_))
    rintro q (k | k)
    · exact k.elim
    · cases r with
      | error e => cases k
      | ok x => cases k; exact ⟨_, rfl⟩
  | alignedAlloc al n => exact LC.andThen ((LC.allocAlignedSimple hro (hnone hhd) hok.2 hok.1).mono fun _ _ _ h => LC.pure (hgot rfl rfl h))
  | valloc n => exact LC.andThen ((LC.allocAlignedSimple hro (hnone hhd) hok (by decide)).mono fun _ _ _ h => LC.pure (hgot rfl rfl h))
  | pvalloc n =>
    refine LC.andThen (LC.mono (Q := Leaves calm noPage) ?_ fun _ _ _ h => LC.pure (hgot rfl rfl h))
    unfold hPvalloc
    split
    · exact LC.andThen (LC.setErrno fun _ _ => LC.pure (Leaves.none (hnone hhd)))
    · exact LC.allocAlignedSimple hro (hnone hhd) (by rw [pageAlign_eq]; omega) (by decide)
  | free p => exact LC.andThen ((LC.hFree hro (hptr hhd).1 hok).mono fun _ _ _ h => LC.pure (h.mono fun _ k => k.elim))
  | freeSized p n => exact LC.andThen ((LC.hFreeSized hro (hptr hhd).1 hok.1).mono fun _ _ _ h => LC.pure (h.mono fun _ k => k.elim))
  | usableSize p =>
    refine LC.andThen (LC.mono (Q := fun _ _ b' => Clean calm b' (fun q => ∃ i, hd = some (q, i))) ?_ fun _ _ _ h => LC.pure h)
    unfold hUsableSize
    split
    · exact LC.pure hb
    split
    · exact LC.andThen (LC.unseal fun _ _ => LC.andThen (LC.smallCheck fun _ _ _ => LC.andThen (LC.sealM fun _ _ => LC.pure hb)))
    · exact LC.andThen (LC.unseal fun _ _ => LC.andThen (LC.lookup fun _ _ => LC.andThen (LC.sealM fun _ _ => LC.pure hb)))
  | objectSize p =>
    refine LC.andThen (LC.mono (Q := fun _ _ b' => Clean calm b' (fun q => ∃ i, hd = some (q, i))) ?_ fun _ _ _ h => LC.pure h)
    unfold hObjectSize
    split
    · exact LC.pure hb
    split
    · exact LC.andThen (LC.unseal fun _ _ => LC.andThen (LC.smallOffset fun _ _ _ => LC.andThen (LC.sealM fun _ _ => LC.pure hb)))
    · exact LC.andThen (LC.unseal fun _ _ => LC.andThen (LC.largeObjectSize fun _ _ _ => LC.andThen (LC.sealM fun _ _ => LC.pure hb)))
  | objectSizeFast p =>
    have hb := (hnone hhd).mono (B' := fun q => ∃ i : Info, (none : Option (Nat × Info)) = some (q, i)) fun _ k => k.elim
    refine LC.andThen (LC.mono (Q := fun _ _ b' => Clean calm b' (fun q => ∃ i : Info, (none : Option (Nat × Info)) = some (q, i))) ?_ fun _ _ _ h => LC.pure h)
    unfold hObjectSizeFast
    split
    · exact LC.pure hb
    split <;> exact LC.pure hb
  | trim =>
    have hb := (hnone hhd).mono (B' := fun q => ∃ i : Info, (none : Option (Nat × Info)) = some (q, i)) fun _ k => k.elim
    refine LC.andThen (LC.mono (Q := fun _ _ b' => Clean calm b' (fun q => ∃ i : Info, (none : Option (Nat × Info)) = some (q, i))) ?_ fun _ _ _ h => LC.pure h)
    unfold hTrim
    exact LC.andThen (LC.unseal fun _ _ => LC.andThen (LC.trimArenas hro _ (by omega) fun _ _ => LC.andThen (LC.sealM fun _ _ => LC.pure hb)))
  | mallinfo =>
    have hb := (hnone hhd).mono (B' := fun q => ∃ i : Info, (none : Option (Nat × Info)) = some (q, i)) fun _ k => k.elim
    refine LC.andThen (LC.mono (Q := fun _ _ b' => Clean calm b' (fun q => ∃ i : Info, (none : Option (Nat × Info)) = some (q, i))) ?_ fun _ _ _ h => LC.pure h)
    unfold hMallinfo
    split
    · exact LC.andThen (LC.unseal fun _ _ => LC.andThen (LC.readLargeStats fun _ _ _ => LC.andThen (LC.sumArenas _ fun _ _ => LC.andThen (LC.sealM fun _ _ => LC.pure hb))))
    · exact LC.pure hb

end

end HM
