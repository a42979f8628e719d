import Verif.WildPath
import Verif.Props.Content
/-
C59: memory errors are caught while the calls of several threads are interleaved. The steps are those of `WReach`: the threads'
actions in any order, with stray stores at any time. `WSteps ro ar calm I h0 s0 h s`: steps that lead from `s0` to `s`, where
`I` holds in every state on the way (other than the last).

The theorems that are called partial are so for the reason given for C36: `CEnv` excludes that, during a call that asks for an
alignment above the page size, the kernel refuses to release the end of the mapping (see `c36_lead_unmapped_twice`).
-/
namespace HM

variable {g : Cfg} {ro : Ro} {ar : Nat → Nat} {calm : Bool} {h : List CEv} {s : CSys}

/-! ### Programs that check before they return -/

/-- The program does not return before an action has succeeded that succeeds only if `C`; before that it does not change the state. -/
def Prog.Checks (C : St → Prop) {α : Type} : Prog α → Prop
  | .ret _ => False
  | .act f k => (∀ ch σ tl y, f ch σ tl = .ok y → C σ) ∨
      ((∀ ch σ tl σ' tl' b, f ch σ tl = .ok (σ', tl', b) → σ' = σ) ∧ ∀ b, (k b).Checks C)

theorem Prog.Checks.bind {C : St → Prop} {α β : Type} {P : Prog α} (h : P.Checks C) (K : α → Prog β) : (P.bind K).Checks C := by
  induction P with
  | ret => exact h.elim
  | act f k ih => exact h.imp id fun h => ⟨h.1, fun b => ih b (h.2 b)⟩

theorem Prog.Checks.unseal {C : St → Prop} {β : Type} {K : Unit → Prog β} (h : (K ()).Checks C) : (unsealMeta.bind K).Checks C :=
  .inr ⟨(fun _ _ _ _ _ _ e => by cases e; rfl), fun _ => h⟩

/-- The block at `p` is in use and its canary is intact. -/
def Passes (ro : Ro) (p : Nat) (σ : St) : Prop :=
  ∃ m k msg1 msg2, findSlot ro.g (ro.regionStart (ro.sizeClassOf p).1 (ro.sizeClassOf p).2) (ro.sizeClassOf p).2 p
      (σ.sc (ro.sizeClassOf p).1 (ro.sizeClassOf p).2) msg1 msg2 = .ok (m, k) ∧
    (ro.g.classSize (ro.sizeClassOf p).2 ≠ 0 →
      checkCanary ro.g false ((σ.sc (ro.sizeClassOf p).1 (ro.sizeClassOf p).2).slabs m).canary p (ro.g.slotSize (ro.sizeClassOf p).2) σ.vm = .ok ())

theorem findSlot_stats {base cls p n : Nat} {c : SC} {m1 m2 : String} : findSlot g base cls p (c.statsDealloc g n) m1 m2 = findSlot g base cls p c m1 m2 := by
  unfold SC.statsDealloc
  split <;> rfl

theorem slabs_stats {n : Nat} {c : SC} : (c.statsDealloc g n).slabs = c.slabs := by
  unfold SC.statsDealloc
  split <;> rfl

theorem tagging_off (hro : RoOk ro) (hm : ro.g.mte = false) (ch : Choice) : tagging ro.g ch = false := by
  unfold tagging
  cases e : ro.g.memtag with
  | false => rfl
  | true => rw [hro.valid.memtag e] at hm; cases hm

theorem Res.of_bind {α β : Type} {x : Res α} {f : α → Res β} {y : β} (h : (x >>= f) = .ok y) : ∃ a, x = .ok a ∧ f a = .ok y := by
  cases x with
  | ok a => exact ⟨a, rfl, h⟩
  | _ => cases h

theorem critical_checks {β : Type} {S : Sect} {f : Choice → St → Errno → Res (St × Errno × β)} {C : St → Prop} (h : ∀ ch σ e y, f ch σ e = .ok y → C σ) :
    (critical ro S f).Checks C := by
  refine .inl fun ch σ tl y e => ?_
  dsimp only at e
  split at e
  · cases e
  · split at e
    · rename_i e1; exact h _ _ _ _ e1
    all_goals cases e

theorem smallFree_checks (hro : RoOk ro) (hm : ro.g.mte = false) (p : Nat) (x : Option Nat) : (smallFree ro p x).Checks (Passes ro p) := by
  refine critical_checks fun ch σ en y e => ?_
  dsimp only at e
  split at e
  · cases e
  · cases e1 : deallocateSmall ro.g (ro.regionStart (ro.sizeClassOf p).1 (ro.sizeClassOf p).2) (ro.sizeClassOf p).2 p x ch
        (σ.sc (ro.sizeClassOf p).1 (ro.sizeClassOf p).2) σ.vm en with
    | ok z =>
      unfold deallocateSmall at e1
      split at e1
      · cases e1
      · obtain ⟨⟨m, k⟩, e2, e1⟩ := Res.of_bind e1
        obtain ⟨vm, e3, e1⟩ := Res.of_bind e1
        rw [findSlot_stats] at e2
        refine ⟨m, k, _, _, e2, fun hz => ?_⟩
        unfold scrubSlot at e3
        rw [if_neg hz] at e3
        obtain ⟨⟨⟩, e3, _⟩ := Res.of_bind e3
        rw [slabs_stats, tagging_off hro hm] at e3
        exact e3
    | _ => rw [e1] at e; cases e

theorem smallCheck_checks (hro : RoOk ro) (hm : ro.g.mte = false) (p : Nat) : (smallCheck ro p).Checks (Passes ro p) := by
  refine critical_checks fun ch σ en y e => ?_
  dsimp only at e
  split at e
  · cases e
  · cases e1 : memoryCorruptionCheckSmall ro.g (tagging ro.g ch) (ro.regionStart (ro.sizeClassOf p).1 (ro.sizeClassOf p).2) (ro.sizeClassOf p).2 p
        (σ.sc (ro.sizeClassOf p).1 (ro.sizeClassOf p).2) σ.vm with
    | ok z =>
      unfold memoryCorruptionCheckSmall at e1
      obtain ⟨⟨m, k⟩, e2, e1⟩ := Res.of_bind e1
      obtain ⟨⟨⟩, e3, e1⟩ := Res.of_bind e1
      refine ⟨m, k, _, _, e2, fun hz => ?_⟩
      unfold checkSlotCanary at e3
      rw [if_pos hz, tagging_off hro hm] at e3
      exact e3
    | _ => rw [e1] at e; cases e

theorem hUsableSize_checks (hro : RoOk ro) (hm : ro.g.mte = false) (p : Nat) (hs : ro.inSlab p = true) (h0 : p ≠ 0) : (hUsableSize ro p).Checks (Passes ro p) := by
  unfold hUsableSize
  rw [if_neg h0, if_pos hs]
  exact Prog.Checks.unseal ((smallCheck_checks hro hm p).bind _)

theorem Prog.Checks.run {C : St → Prop} {α : Type} {P : Prog α} (h : P.Checks C) {chs : Nat → Choice} {σ : St} {tl : Tl} {y : St × Tl × α}
    (e : P.run chs σ tl = .ok y) : C σ := by
  induction P generalizing chs σ tl with
  | ret => exact h.elim
  | act f k ih =>
    unfold Prog.run at e
    cases e1 : f (chs 0) σ tl with
    | ok z =>
      obtain ⟨σ', tl', b⟩ := z
      rw [e1] at e
      rcases h with h | ⟨h, h'⟩
      · exact h _ _ _ _ e1
      · have := h _ _ _ _ _ _ e1
        subst this
        exact ih b (h' b) e
    | _ => rw [e1] at e; cases e

/-- `free`, `free_sized` and `malloc_usable_size` of an address in the slab region check the block. -/
theorem Call.checks (hro : RoOk ro) (hm : ro.g.mte = false) {p : Nat} (hs : ro.inSlab p = true) (h0 : p ≠ 0) {c : Call} (hc : c = .free p ∨ (∃ n, c = .freeSized p n) ∨ c = .usableSize p) (arena : Nat) :
    (c.prog ro arena).Checks (Passes ro p) := by
  rcases hc with rfl | ⟨n, rfl⟩ | rfl
  · show Prog.Checks _ (Prog.bind (hFree ro p) _)
    unfold hFree
    rw [if_neg h0, if_pos hs]
    exact Prog.Checks.bind (Prog.Checks.unseal ((smallFree_checks hro hm p _).bind _)) _
  · show Prog.Checks _ (Prog.bind (hFreeSized ro p n) _)
    unfold hFreeSized
    dsimp only
    rw [if_neg h0, if_pos hs]
    exact Prog.Checks.bind (Prog.Checks.unseal ((smallFree_checks hro hm p _).bind _)) _
  · exact Prog.Checks.bind (hUsableSize_checks hro hm p hs h0) _

/-- What a passed check says of a small block. -/
theorem Passes.canary (hro : RoOk ro) {w : World} (hi : GInv ro w) {σ : St} (e : σ.sc = w.σ.sc) (hm : ro.g.mte = false) (hcan : ro.g.slabCanary = true)
    {p a c i k : Nat} (hs : IsSmall ro w.σ p a c i k) (hz : ro.g.classSize c ≠ 0) (h : Passes ro p σ) {j : Nat} (hj : j < 8) :
    σ.vm.mem (p + ro.g.slotSize c - 8 + j) = byteOf ((w.σ.sc a c).slabs i).canary j := by
  obtain ⟨m, k', m1, m2, h1, h2⟩ := h
  rw [hs.cls hro hi, e] at h1 h2
  dsimp only at h1 h2
  replace h2 := h2 hz
  obtain ⟨P, E, F, hc⟩ := hi.cls a c hs.1 hs.2.1
  have h3 := findSlot_spec (p := p) (msg1 := m1) (msg2 := m2) hro.valid (hro.base hs.1 hs.2.1) hs.2.1 hc.bits (inSlab_lt hro (hs.inSlab hro hi))
  rw [h1] at h3
  obtain ⟨_, hk, _⟩ := hs.lt hi
  obtain ⟨rfl, rfl⟩ := slotAddr_inj hs.2.1 (hc.bits.used_lt h3.2) hk (h3.1.symm.trans hs.2.2.1)
  unfold checkCanary at h2
  rw [hcan, hm] at h2
  simp only [Bool.not_true, Bool.false_or, Bool.false_and] at h2
  split at h2
  · rename_i hc; cases hc
  · split at h2
    · cases h2
    · split at h2
      · rename_i hd
        exact of_decide_eq_true hd j hj
      · cases h2

/-! ### Following a small block -/

/-- What is known of the small block `p` in state `s`. -/
structure Follow (g : Cfg) (ro : Ro) (ar : Nat → Nat) (calm : Bool) (p a cl i k : Nat) (κ : BitVec 64) (B : World → Prop) (h : List CEv) (s : CSys) : Prop where
  blind : ∀ t c P, s.run t = some (c, P) → P.Blind
  world : ∃ s' n w, CReach g ro ar calm (dropStores h) s' ∧ Shadow s s' ∧ CInv ro calm n (dropStores h) s' w ∧ IsSmall ro s'.σ p a cl i k ∧
    ((s'.σ.sc a cl).slabs i).canary = κ ∧ B w

theorem Shadow.sc {s s' : CSys} (S : Shadow s s') : s'.σ.sc = s.σ.sc := by rw [S.σ]

theorem Follow.app (hg : Good g ar) (hro : RoOk ro) (eg : ro.g = g) {p a cl i k : Nat} {κ : BitVec 64} {h' : List CEv} {s' : CSys}
    (F : Follow g ro ar calm p a cl i k κ (fun _ => True) h s) (hl : ((hold h).live p).isSome = true) (st : WStep ro ar calm h s h' s') :
    Follow g ro ar calm p a cl i k κ (fun _ => True) h' s' := by
  refine ⟨st.blind F.blind, ?_⟩
  obtain ⟨s0, n, w, r, S, I, hs, hk, _⟩ := F.world
  obtain ⟨s1, h1, S1⟩ := st.mirror hg r S F.blind
  rcases h1 with ⟨x, v, rfl, _, rfl⟩ | h1
  · exact ⟨s1, n, w, r, S1, I, hs, hk, trivial⟩
  · obtain ⟨n', w', I', C⟩ := I.step hg hro eg h1
    obtain ⟨k1, k2⟩ := I.keep_app I' h1 C (by rw [hold_dropStores]; exact hl) hs
    exact ⟨s1, n', w', r.next h1, S1, I', k1, k2.trans hk, trivial⟩

theorem Follow.thr (hg : Good g ar) (hro : RoOk ro) (eg : ro.g = g) {p a cl i k t : Nat} {κ : BitVec 64} {h' : List CEv} {s' : CSys}
    (F : Follow g ro ar calm p a cl i k κ (fun w => w.G.blk p = .thr (t + 1)) h s) (st : WStep ro ar calm h s h' s')
    (hn : ∀ c x, s.run t ≠ some (c, .ret x)) (own : s'.run t = s.run t ∨ s'.σ.sc = s.σ.sc) (hf : ∀ u, h' ≠ .fork u :: h) :
    Follow g ro ar calm p a cl i k κ (fun w => w.G.blk p = .thr (t + 1)) h' s' := by
  refine ⟨st.blind F.blind, ?_⟩
  obtain ⟨s0, n, w, r, S, I, hs, hk, hb⟩ := F.world
  obtain ⟨s1, h1, S1⟩ := st.mirror hg r S F.blind
  rcases h1 with ⟨x, v, rfl, _, rfl⟩ | h1
  · exact ⟨s1, n, w, r, S1, I, hs, hk, hb⟩
  · obtain ⟨n', w', I', k1, k2, k3⟩ := I.keep_thr hg hro eg h1 hb hs (fun c x => by rw [S.run]; exact hn c x)
      (own.imp (fun e => by rw [S.run, S1.run]; exact e) fun e => by rw [S.sc, S1.sc]; exact e) fun u e => by
        cases st with
        | step => simp at e
        | fork => exact hf _ rfl
        | store => simp only [dropStores] at e; exact absurd (congrArg List.length e) (by simp)
        | _ => simp [dropStores] at e
    exact ⟨s1, n', w', r.next h1, S1, I', k2, k3.trans hk, k1⟩

/-- The number of forks in a history. -/
def forks : List CEv → Nat
  | [] => 0
  | .fork _ :: h => forks h + 1
  | _ :: h => forks h

theorem forks_cons (e : CEv) (h : List CEv) : forks h ≤ forks (e :: h) := by
  cases e <;> simp [forks]

theorem WStep.forks {h' : List CEv} {s' : CSys} (st : WStep ro ar calm h s h' s') : HM.forks h ≤ HM.forks h' := by
  cases st with
  | step => exact Nat.le_refl _
  | _ => exact forks_cons _ _

theorem WSteps.forks {I : List CEv → CSys → Prop} {h0 : List CEv} {s0 : CSys} (st : WSteps ro ar calm I h0 s0 h s) : HM.forks h0 ≤ HM.forks h := by
  induction st with
  | refl => exact Nat.le_refl _
  | tail _ _ st ih => exact Nat.le_trans ih st.forks

/-- C59 (C09). Overwriting what follows a small block is caught when the block is freed or its size is asked for. The
application has block `p` of `u` usable bytes, in state `s0`, keeps it until thread `t` calls `free`, `free_sized` or
`malloc_usable_size` for it, and from then on one of the 8 bytes behind it differs from what it was in `s0`. Then the call
does not return, whatever the other threads do meanwhile. -/
theorem c59_overflow_partial (hg : Good g ar) {h0 h1 h2 : List CEv} {s0 s1 s2 : CSys} {p u t b : Nat} {c : Call} (hcan : g.slabCanary = true) (hmte : g.mte = false)
    (r0 : WReach g ro ar calm h0 s0) (hp1 : ro.slabStart ≤ p) (hp2 : p < ro.slabEnd) (hl : ((hold h0).live p).isSome) (hu : Usable ro s0.σ p u) (hu0 : 0 < u)
    (st1 : WSteps ro ar calm (fun h _ => ((hold h).live p).isSome = true) h0 s0 h1 s1)
    (hc : c = .free p ∨ (∃ n, c = .freeSized p n) ∨ c = .usableSize p) (inv : WStep ro ar calm h1 s1 (.inv t c b :: h1) s2)
    (st2 : WSteps ro ar calm (fun _ s => ∃ j, j < 8 ∧ s.σ.vm.mem (p + u + j) ≠ s0.σ.vm.mem (p + u + j)) (.inv t c b :: h1) s2 h2 s)
    (hf : forks h2 = forks h1) : ∃ P, s.run t = some (c, P) ∧ ∀ x, P ≠ .ret x := by
  obtain ⟨⟨s0', r0', S0⟩, hB0⟩ := r0.shadow hg
  obtain ⟨hro, rfl⟩ := r0'.roOk hg
  have hin : ro.inSlab p = true := by unfold Ro.inSlab; simp [hp1, hp2]
  have hp0 : p ≠ 0 := by have := hro.lo; omega
  -- the block in state s0
  obtain ⟨w0, n0, I0⟩ := r0'.inv hg
  have hl' : ((hold (dropStores h0)).live p).isSome = true := by rw [hold_dropStores]; exact hl
  obtain ⟨inf, hinf⟩ := Option.isSome_iff_exists.mp hl'
  have hu' := (I0.usable_iff hro hl').mp (S0.usable hg r0' hinf hu)
  obtain ⟨a, cl, i, k, hs, hus, _⟩ := hu'.small hro I0.inv hp1 hp2
  obtain ⟨hz, hue⟩ := hus (by omega)
  have h10 : ro.g.canarySize = 8 := by unfold Cfg.canarySize; rw [hcan]; rfl
  have h11 := (classGeo ro.g hs.2.1).size_ge
  have ea : p + ro.g.slotSize cl - 8 = p + u := by omega
  have hpass : ∀ {h : List CEv} {s : CSys} {κ : BitVec 64} {B : World → Prop}, Follow ro.g ro ar calm p a cl i k κ B h s → Passes ro p s.σ → ∀ j, j < 8 →
      s.σ.vm.mem (p + u + j) = byteOf κ j := by
    intro h s κ B F hP j hj
    obtain ⟨s', n, w, r, S, I, k1, k2, _⟩ := F.world
    rw [← ea, ← k2, ← I.σ]
    exact hP.canary hro I.inv (by rw [I.σ, S.sc]) hmte hcan (by rw [I.σ]; exact k1) hz hj
  have hs0 : IsSmall ro s0'.σ p a cl i k := by rw [← I0.σ]; exact hs
  have F0 : Follow ro.g ro ar calm p a cl i k ((s0'.σ.sc a cl).slabs i).canary (fun _ => True) h0 s0 := ⟨hB0, s0', n0, w0, r0', S0, I0, hs0, rfl, trivial⟩
  have hm0 := hpass F0 ((hUsableSize_checks hro hmte p hin hp0).run hu.choose_spec)
  -- the application keeps it
  have F1 : Follow ro.g ro ar calm p a cl i k ((s0'.σ.sc a cl).slabs i).canary (fun _ => True) h1 s1 := by
    clear inv st2 hf
    induction st1 with
    | refl => exact F0
    | tail _ hI st ih => exact ih.app hg hro rfl hI st
  have hB2 := inv.blind F1.blind
  -- the call begins
  have F2 : Follow ro.g ro ar calm p a cl i k ((s0'.σ.sc a cl).slabs i).canary (fun w => w.G.blk p = .thr (t + 1)) (.inv t c b :: h1) s2 ∧
      ∃ P, s2.run t = some (c, P) ∧ P.Checks (Passes ro p) := by
    obtain ⟨s', n, w, r, S, I, k1, k2, _⟩ := F1.world
    obtain ⟨s2', h3, S2⟩ := inv.mirror hg r S F1.blind
    rcases h3 with ⟨x, v, e, _⟩ | h3
    · simp at e
    cases inv with
    | invoke t c b hi hok hl2 =>
      have eb : b = p ∧ ((hold h1).live p).isSome = true := by
        rcases hc with rfl | ⟨n, rfl⟩ | rfl
        · exact ⟨hl2.1, hl2.2.resolve_left hp0⟩
        · exact ⟨hl2.1, by rw [hl2.2.resolve_left hp0]; rfl⟩
        · exact ⟨hl2.1, hl2.2.resolve_left hp0⟩
      obtain ⟨rfl, hlp⟩ := eb
      refine ⟨⟨hB2, ?_⟩, _, if_pos rfl, Call.checks hro hmte hin hp0 hc _⟩
      have hsc := S2.sc
      obtain ⟨n', w', I', C⟩ := I.step hg hro rfl h3
      refine ⟨s2', n', w', r.next h3, S2, I', k1.of_sc ?_, ?_, ?_⟩
      · rw [S2.sc, S.sc]
      · rw [S2.sc, ← k2, S.sc]
      · have hlp' : ((hold (dropStores h1)).live b).isSome = true := by rw [hold_dropStores]; exact hlp
        cases C with
        | inv hi hl3 eh en er es ew =>
          simp only [dropStores, List.cons.injEq, CEv.inv.injEq, and_true] at eh
          obtain ⟨rfl, _, rfl⟩ := eh
          rcases ew with ⟨_, hno⟩ | ⟨rfl, _⟩
          · rw [hno] at hlp'; cases hlp'
          · exact give_self _ _ _
        | act hc hd eh => simp [dropStores] at eh
        | ret hc eh => simp [dropStores] at eh
        | fork hi eh => simp [dropStores] at eh
        | out eh he =>
          simp only [dropStores, List.cons.injEq, and_true] at eh
          subst eh
          rcases he with ⟨_, _, e⟩ | ⟨_, _, e⟩ | ⟨_, _, e⟩ <;> cases e
  -- it does not get past the check
  have key : Follow ro.g ro ar calm p a cl i k ((s0'.σ.sc a cl).slabs i).canary (fun w => w.G.blk p = .thr (t + 1)) h2 s ∧
      ∃ P, s.run t = some (c, P) ∧ P.Checks (Passes ro p) := by
    have hle : forks h1 ≤ forks (.inv t c b :: h1) := forks_cons _ _
    induction st2 with
    | refl => exact F2
    | @tail h3 h4 s3 s4 st2 hI st ih =>
      have hf1 := st2.forks
      have hf2 := st.forks
      obtain ⟨F, P, hP, hch⟩ := ih (by omega)
      have hbad : ¬ Passes ro p s3.σ := fun hp => by
        obtain ⟨j, hj, hne⟩ := hI
        exact hne ((hpass F hp j hj).trans (hm0 j hj).symm)
      have hnr : ∀ c x, s3.run t ≠ some (c, .ret x) := fun c' x e => by
        rw [hP] at e
        cases e
        exact hch.elim
      have hnf : ∀ v, h4 ≠ .fork v :: h3 := fun v e => by
        subst e
        simp only [forks] at hf
        omega
      have own : (s4.run t = s3.run t) ∨ s4.σ.sc = s3.σ.sc ∧ ∃ P, s4.run t = some (c, P) ∧ P.Checks (Passes ro p) := by
        cases st with
        | invoke t' c' b' hi hok hl =>
          exact .inl (if_neg fun e => by subst e; rw [hP] at hi; cases hi)
        | @step t' c' β l f k' hc' ch he σ' tl' b' hf' =>
          by_cases e : t = t'
          · subst e
            rw [hP] at hc'
            cases hc'
            rcases hch with hch | ⟨hch, hk⟩
            · exact absurd (hch _ _ _ _ hf') hbad
            · exact .inr ⟨congrArg St.sc (hch _ _ _ _ _ _ hf'), _, if_pos rfl, hk _⟩
          · exact .inl (if_neg e)
        | ret t' hc' => exact .inl (if_neg fun e => by subst e; exact hnr _ _ hc')
        | fork t' hi => exact absurd rfl (hnf t')
        | _ => exact .inl rfl
      refine ⟨F.thr hg hro rfl st hnr (own.imp id And.left) hnf, ?_⟩
      rcases own with e | ⟨_, e⟩
      · rw [e]; exact ⟨P, hP, hch⟩
      · exact e
  obtain ⟨_, P, hP, hch⟩ := key
  exact ⟨P, hP, fun x e => by subst e; exact hch.elim⟩

/-- What the theorem assumes happens: a block of 104 usable bytes, with calls of other threads in progress, is overrun by a
byte; its size is then asked for, and the bytes behind it are overwritten once more during the call. -/
example : ∃ h0 s0 h1 s1 s2 h2 s, WReach (exCfg false true) (exRo false true) (fun t => t % 4) false h0 s0 ∧
    (exRo false true).slabStart ≤ exA ∧ exA < (exRo false true).slabEnd ∧ ((hold h0).live exA).isSome = true ∧ Usable (exRo false true) s0.σ exA 104 ∧
    s0.phase 1 = some none ∧
    WSteps (exRo false true) (fun t => t % 4) false (fun h _ => ((hold h).live exA).isSome = true) h0 s0 h1 s1 ∧ h1 ≠ h0 ∧
    WStep (exRo false true) (fun t => t % 4) false h1 s1 (.inv 0 (.usableSize exA) exA :: h1) s2 ∧
    WSteps (exRo false true) (fun t => t % 4) false (fun _ s => ∃ j, j < 8 ∧ s.σ.vm.mem (exA + 104 + j) ≠ s0.σ.vm.mem (exA + 104 + j))
      (.inv 0 (.usableSize exA) exA :: h1) s2 h2 s ∧ h2 ≠ .inv 0 (.usableSize exA) exA :: h1 ∧ forks h2 = forks h1 := by
  obtain ⟨h, s, r, h2⟩ := ex_wild (stats := false) (sealed := true) (calm := false) (exWild.take 8)
    (fun h s => decide ((hold h).live exA = some ⟨100, none⟩) && decide (usableB (exRo false true) s.σ exA = some 104) &&
      decide (s.phase 1 = some none) && (s.run 0).isNone && decide (s.σ.vm.mem (exA + 104) ≠ 9#8) && decide (s.σ.vm.prot ((exA + 104) / PAGE) = .rw)) (by decide +kernel)
  simp only [Bool.and_eq_true, decide_eq_true_eq, Option.isNone_iff_eq_none] at h2
  obtain ⟨⟨⟨⟨⟨k1, k2⟩, k3⟩, k4⟩, k5⟩, k6⟩ := h2
  have hm : (s.σ.vm.appStore (exA + 104) 9#8).mem (exA + 104) = 9#8 := by unfold Vm.appStore; simp [k6]
  refine ⟨h, s, _, _, _, _, _, r, by decide, by decide, by rw [k1]; rfl, usableB_usable k2, k3,
    .tail .refl (by rw [k1]; rfl) (.store (exA + 104) 9#8), by simp, .invoke 0 (.usableSize exA) exA k4 ?_ ?_,
    .tail .refl ⟨0, by decide, ?_⟩ (.store (exA + 105) 5#8), by simp, rfl⟩
  · exact Call.okB_ok (by decide)
  · exact ⟨rfl, .inr (by show ((hold h).live exA).isSome = true; rw [k1]; rfl)⟩
  · simp only [Nat.add_zero]
    rw [hm]; exact fun e => k5 e.symm

end HM
