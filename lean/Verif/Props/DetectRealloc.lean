import Verif.Props.Detect
/-
C59: an overrun block is found out by `realloc`, while the calls of several threads are interleaved. As in Detect.lean.
-/
namespace HM

variable {g : Cfg} {ro : Ro} {ar : Nat → Nat} {calm : Bool} {h : List CEv} {s : CSys}

/-- The action leaves the small block `p` of the thread and its canary alone. -/
def Spares (ro : Ro) (p : Nat) {β : Type} (f : Choice → St → Tl → Res (St × Tl × β)) : Prop :=
  ∀ t w ch tl σ' tl' b, GInv ro w → w.G.blk p = .thr t → Fair .conc w.G.env ch → f ch w.σ tl = .ok (σ', tl', b) →
    ∀ a cl i k, IsSmall ro w.σ p a cl i k → IsSmall ro σ' p a cl i k ∧ ((σ'.sc a cl).slabs i).canary = ((w.σ.sc a cl).slabs i).canary

theorem Spares.of_sc {p : Nat} {β : Type} {f : Choice → St → Tl → Res (St × Tl × β)} (h : ∀ ch σ tl σ' tl' b, f ch σ tl = .ok (σ', tl', b) → σ'.sc = σ.sc) :
    Spares ro p f := by
  intro t w ch tl σ' tl' b _ _ _ e a cl i k hs
  have := h _ _ _ _ _ _ e
  exact ⟨hs.of_sc this, by rw [this]⟩

/-- The program does not return a result other than those in `R` before an action has succeeded that succeeds only if the
canary of `p` is intact; before that it leaves `p` alone. -/
def Prog.Until (ro : Ro) (p : Nat) {α : Type} (R : α → Prop) : Prog α → Prop
  | .ret x => R x
  | .act f k => (∀ ch σ tl y, f ch σ tl = .ok y → Passes ro p σ) ∨ (Spares ro p f ∧ ∀ b, (k b).Until ro p R)

namespace Prog.Until
variable {p : Nat}

theorem bind {α β : Type} {R : α → Prop} {R' : β → Prop} {P : Prog α} (h : P.Until ro p R) {K : α → Prog β} (hK : ∀ x, R x → (K x).Until ro p R') :
    (P.bind K).Until ro p R' := by
  induction P with
  | ret x => exact hK x h
  | act f k ih => exact h.imp id fun h => ⟨h.1, fun b => ih b (h.2 b)⟩

theorem of_checks {α : Type} {R : α → Prop} {P : Prog α} (h : P.Checks (Passes ro p)) : P.Until ro p R := by
  induction P with
  | ret x => exact h.elim
  | act f k ih => exact h.imp id fun h => ⟨.of_sc fun _ _ _ _ _ _ e => congrArg St.sc (h.1 _ _ _ _ _ _ e), fun b => ih b (h.2 b)⟩

theorem one {β : Type} {f : Choice → St → Tl → Res (St × Tl × β)} (h : ∀ ch σ tl σ' tl' b, f ch σ tl = .ok (σ', tl', b) → σ'.sc = σ.sc) :
    (Prog.one f).Until ro p (fun _ => True) := .inr ⟨.of_sc h, fun _ => trivial⟩

theorem critical {β : Type} {S : Sect} {f : Choice → St → Errno → Res (St × Errno × β)} (h : ∀ ch σ e σ' e' b, f ch σ e = .ok (σ', e', b) → σ'.sc = σ.sc) :
    (HM.critical ro S f).Until ro p (fun _ => True) := by
  refine .inr ⟨.of_sc fun ch σ tl σ' tl' b e => ?_, fun _ => trivial⟩
  split at e
  · cases e
  · split at e
    · rename_i e1; cases e; exact h _ _ _ _ _ _ e1
    all_goals cases e

theorem setErrno (e : Errno) : (HM.setErrno e).Until ro p (fun _ => True) := one fun _ _ _ _ _ _ e => by cases e; rfl
theorem unsealMeta : HM.unsealMeta.Until ro p (fun _ => True) := one fun _ _ _ _ _ _ e => by cases e; rfl
theorem sealMeta : HM.sealMeta.Until ro p (fun _ => True) := one fun _ _ _ _ _ _ e => by cases e; rfl
theorem sysMap (n : Nat) : (HM.sysMap n).Until ro p (fun _ => True) := one fun ch σ tl σ' tl' b e => by
  split at e <;> cases e <;> rfl
theorem sysCall (l : Bool) (f : Choice → Vm → Res (Vm × Bool)) : (HM.sysCall l f).Until ro p (fun _ => True) := one fun ch σ tl σ' tl' b e => by
  split at e <;> cases e <;> rfl
theorem memCopy (d s n : Nat) : (HM.memCopy d s n).Until ro p (fun _ => True) := one fun ch σ tl σ' tl' b e => by
  split at e <;> cases e <;> rfl
theorem drawGuard (n : Nat) : (HM.drawGuard ro n).Until ro p (fun _ => True) := critical fun _ _ _ _ _ _ e => by cases e; rfl
theorem insertRegion (q n gd : Nat) (b : Bool) : (HM.insertRegion ro q n gd b).Until ro p (fun _ => True) := critical fun ch σ e σ' e' b hf => by
  split at hf
  · cases hf
  · split at hf <;> cases hf <;> rfl

theorem smallAlloc (hro : RoOk ro) {a n : Nat} (ha : a < ro.g.nArena) (hn : n ≤ ro.g.maxSlab) : (HM.smallAlloc ro a n).Until ro p (fun _ => True) := by
  refine .inr ⟨fun t w ch tl σ' tl' b hi hb hf e a' cl i k hs => ?_, fun _ => trivial⟩
  have hu : Unsealed ro tl := by
    dsimp only at e
    split at e
    · cases e
    · rename_i hne
      intro hse
      simpa [hse] using hne
  have h1 := (smallAlloc_wp (m := .conc) (t := t) (F := fun _ _ _ => True) (n := n) (a := a) hro (fun _ _ _ _ => trivial) hi hu ha hn fun _ _ => trivial).2 ch hf
  rw [e] at h1
  obtain ⟨G', h2, h3⟩ := h1
  have h4 := h3 _ (Rely.refl h2.inv)
  cases b with
  | none => exact let x := (h4.2.1.keep p id hb).small a' cl i k hs; ⟨x.1, x.2.1⟩
  | some q => exact let x := (h4.2.2.at_.keep p (fun e => h4.2.2.old (e ▸ hb)) hb).small a' cl i k hs; ⟨x.1, x.2.1⟩

theorem any {α : Type} {R : α → Prop} {P : Prog α} (h : P.Until ro p R) : P.Until ro p (fun _ => True) := by
  induction P with
  | ret x => trivial
  | act f k ih => exact h.imp id fun h => ⟨h.1, fun b => ih b (h.2 b)⟩

theorem then_ {α β : Type} {R : β → Prop} {P : Prog α} (h : P.Until ro p (fun _ => True)) {K : α → Prog β} (hK : ∀ x, (K x).Until ro p R) :
    (P >>= K).Until ro p R := bind h fun x _ => hK x

theorem pure {α : Type} {R : α → Prop} {x : α} (h : R x) : (Pure.pure x : Prog α).Until ro p R := h

theorem deallocatePages (q n gd : Nat) : (HM.deallocatePages q n gd).Until ro p (fun _ => True) := by
  unfold HM.deallocatePages
  exact then_ (sysCall _ _) fun b => by
    repeat' split
    all_goals first | exact pure trivial | exact then_ (sysCall _ _) fun _ => pure trivial

theorem allocatePages (n gd : Nat) : (HM.allocatePages n gd).Until ro p (fun _ => True) := by
  unfold HM.allocatePages
  split
  · exact then_ (setErrno _) fun _ => pure trivial
  · refine then_ (sysMap _) fun r => ?_
    cases r with
    | none => exact pure trivial
    | some q =>
      refine then_ (sysCall _ _) fun b => ?_
      split
      · exact then_ (sysCall _ _) fun _ => pure trivial
      · exact pure trivial

theorem allocateLarge (n : Nat) : (HM.allocateLarge ro n).Until ro p (fun _ => True) := by
  unfold HM.allocateLarge
  dsimp only
  split
  · exact then_ (setErrno _) fun _ => pure trivial
  · refine then_ (drawGuard _) fun gd => then_ (allocatePages _ _) fun r => ?_
    unfold finishLarge
    cases r with
    | none => exact pure trivial
    | some q =>
      refine then_ (insertRegion _ _ _ _) fun b => ?_
      split
      · exact pure trivial
      · exact then_ (deallocatePages _ _ _) fun _ => pure trivial

theorem allocate (hro : RoOk ro) {a n : Nat} (ha : a < ro.g.nArena) : (HM.allocate ro a n).Until ro p (fun _ => True) := by
  unfold HM.allocate
  split
  · rename_i h; exact smallAlloc hro ha h
  · exact allocateLarge _

/-- `realloc` of a small block checks the block if it moves it. -/
theorem reallocSized (hro : RoOk ro) (hm : ro.g.mte = false) {a n : Nat} (ha : a < ro.g.nArena) (hs : ro.inSlab p = true) :
    (HM.reallocSized ro a p n).Until ro p (fun r => r = none ∨ r = some p) := by
  unfold HM.reallocSized
  rw [if_pos hs]
  dsimp only
  split
  · exact pure (.inr rfl)
  · refine then_ unsealMeta fun _ => ?_
    unfold reallocCopy
    refine then_ (allocate hro ha) fun r => ?_
    cases r with
    | none => exact then_ sealMeta fun _ => pure (.inl rfl)
    | some q =>
      refine then_ (memCopy _ _ _) fun _ => ?_
      have : ro.slabUsableSize p ≤ ro.g.maxSlab := classSize_le_maxSlab (hro.sizeClassOf_lt hs).2.1
      rw [if_pos this]
      exact of_checks ((smallFree_checks hro hm p none).bind _)

theorem realloc (hro : RoOk ro) (hm : ro.g.mte = false) {a n : Nat} (ha : a < ro.g.nArena) (hs : ro.inSlab p = true) (h0 : p ≠ 0) :
    ((Call.realloc p n).prog ro a).Until ro p (fun x => x = .ptr 0 ∨ x = .ptr p) := by
  refine bind (R := fun r => r = none ∨ r = some p) ?_ fun r hr => pure (hr.imp (fun e => by rw [e]; rfl) fun e => by rw [e]; rfl)
  unfold hRealloc
  dsimp only
  rw [if_neg h0]
  split
  · split
    · exact then_ (setErrno _) fun _ => pure (.inl rfl)
    · exact reallocSized hro hm ha hs
  · exact reallocSized hro hm ha hs

end Prog.Until

/-- A small block that a call of thread `t` has in hand keeps its place and its canary in every step other than a fork or the
return of the call, unless it is an action of that call which does not spare it. -/
theorem CInv.keep_own (hg : Good g ar) (hro : RoOk ro) (eg : ro.g = g) {n : Nat → Nat} {w : World} {h' : List CEv} {s' : CSys} (i : CInv ro calm n h s w)
    (st : CStep ro ar calm h s h' s') {p a cl j k t : Nat} (hb : w.G.blk p = .thr (t + 1)) (hs : IsSmall ro s.σ p a cl j k)
    (hn : ∀ c x, s.run t ≠ some (c, .ret x))
    (own : ∀ c β l f k, s.run t = some (c, .act (β := β) (l := l) f k) → s'.run t ≠ s.run t → Spares ro p f) (hf : ∀ u, h' ≠ .fork u :: h) :
    ∃ n' w', CInv ro calm n' h' s' w' ∧ w'.G.blk p = .thr (t + 1) ∧ IsSmall ro s'.σ p a cl j k ∧
      ((s'.σ.sc a cl).slabs j).canary = ((s.σ.sc a cl).slabs j).canary := by
  by_cases hh : s'.run t = s.run t
  · exact i.keep_thr hg hro eg st hb hs hn (.inl hh) hf
  cases st with
  | @step u c β l f k0 hc ch he σ' tl' b hf' =>
    by_cases hu : t = u
    · subst hu
      obtain ⟨ch', hst, hch, _⟩ := i.settle hc he
      have h0 : Fair .conc w.G.env ch' := i.env ▸ hst.fair
      have h1 := (i.wp hc).2 _ h0
      rw [hch, i.σ, hf'] at h1
      obtain ⟨G', h2, h3⟩ := h1
      have I := i.act h2.toTrans (tl' := tl') (P' := some (c, k0 b))
        (fun c' P e => by cases e; exact ⟨fun hp => ((i.run t _ _ hc).1 hp).2 _, fun w' r => h3 w' r⟩) (fun e => by cases e)
      have h5 := own _ _ _ _ _ hc hh (t + 1) w ch' (s.tl t) σ' tl' b i.inv hb h0 (by rw [hch, i.σ]; exact hf') a cl j k (by rw [i.σ]; exact hs)
      rw [i.σ] at h5
      refine ⟨n, _, I, ?_, h5⟩
      have h4 := (h2.inv.blk p).mpr (.inl ⟨a, cl, j, k, h5.1⟩)
      by_contra h6
      exact h6 (((h2.toTrans.same _ h4 h6).blk p).mp rfl ▸ hb)
    · exact absurd (if_neg hu) hh
  | invoke u c b hi hok hl =>
    exact i.keep_thr hg hro eg (.invoke u c b hi hok hl) hb hs hn (.inr rfl) hf
  | ret u hc => exact i.keep_thr hg hro eg (.ret u hc) hb hs hn (.inr rfl) hf
  | fork u hi => exact absurd rfl (hf u)
  | store => exact absurd rfl hh
  | errno => exact absurd rfl hh
  | other => exact absurd rfl hh

theorem Follow.own (hg : Good g ar) (hro : RoOk ro) (eg : ro.g = g) {p a cl i k t : Nat} {κ : BitVec 64} {h' : List CEv} {s' : CSys}
    (F : Follow g ro ar calm p a cl i k κ (fun w => w.G.blk p = .thr (t + 1)) h s) (st : WStep ro ar calm h s h' s')
    (hn : ∀ c x, s.run t ≠ some (c, .ret x))
    (own : ∀ c β l f k, s.run t = some (c, .act (β := β) (l := l) f k) → s'.run t ≠ s.run t → Spares ro p f) (hf : ∀ u, h' ≠ .fork u :: h) :
    Follow g ro ar calm p a cl i k κ (fun w => w.G.blk p = .thr (t + 1)) h' s' := by
  refine ⟨st.blind F.blind, ?_⟩
  obtain ⟨s0, n, w, r, S, I, hs, hk, hb⟩ := F.world
  obtain ⟨s1, h1, S1⟩ := st.mirror hg r S F.blind
  rcases h1 with ⟨x, v, rfl, _, rfl⟩ | h1
  · exact ⟨s1, n, w, r, S1, I, hs, hk, hb⟩
  · obtain ⟨n', w', I', k1, k2, k3⟩ := I.keep_own hg hro eg h1 hb hs (fun c x => by rw [S.run]; exact hn c x)
      (fun c β l f k e e' => own c β l f k (by rw [← S.run]; exact e) (by rw [← S.run, ← S1.run]; exact e')) fun u e => by
        cases st with
        | step => simp at e
        | fork => exact hf _ rfl
        | store => simp only [dropStores] at e; exact absurd (congrArg List.length e) (by simp)
        | _ => simp [dropStores] at e
    exact ⟨s1, n', w', r.next h1, S1, I', k2, k3.trans hk, k1⟩

/-- C59 (C09). An overrun block is not moved. The application has block `p` of `u` usable bytes, in state `s0`, keeps it until
thread `t` calls `realloc` for it, and from then on one of the 8 bytes behind it differs from what it was in `s0`. If the call
gets as far as returning, it returns NULL or `p` itself, whatever the other threads do meanwhile. -/
theorem c59_overflow_realloc_partial (hg : Good g ar) {h0 h1 h2 : List CEv} {s0 s1 s2 : CSys} {p u t b m : Nat} (hcan : g.slabCanary = true) (hmte : g.mte = false)
    (r0 : WReach g ro ar calm h0 s0) (hp1 : ro.slabStart ≤ p) (hp2 : p < ro.slabEnd) (hl : ((hold h0).live p).isSome) (hu : Usable ro s0.σ p u) (hu0 : 0 < u)
    (st1 : WSteps ro ar calm (fun h _ => ((hold h).live p).isSome = true) h0 s0 h1 s1) (inv : WStep ro ar calm h1 s1 (.inv t (.realloc p m) b :: h1) s2)
    (st2 : WSteps ro ar calm (fun _ s => (∃ j, j < 8 ∧ s.σ.vm.mem (p + u + j) ≠ s0.σ.vm.mem (p + u + j)) ∧ s.run t ≠ none) (.inv t (.realloc p m) b :: h1) s2 h2 s)
    (hf : forks h2 = forks h1) {x : Ret} (hx : s.run t = some (.realloc p m, .ret x)) : x = .ptr 0 ∨ x = .ptr p := by
  obtain ⟨⟨s0', r0', S0⟩, hB0⟩ := r0.shadow hg
  obtain ⟨hro, rfl⟩ := r0'.roOk hg
  have hin : ro.inSlab p = true := by unfold Ro.inSlab; simp [hp1, hp2]
  have hp0 : p ≠ 0 := by have := hro.lo; omega
  -- the block in state s0
  obtain ⟨w0, n0, I0⟩ := r0'.inv hg
  have hl' : ((hold (dropStores h0)).live p).isSome = true := by rw [hold_dropStores]; exact hl
  obtain ⟨inf, hinf⟩ := Option.isSome_iff_exists.mp hl'
  have hu' := (I0.usable_iff hro hl').mp (S0.usable hg r0' hinf hu)
  obtain ⟨a, cl, i, k, hs, hus, _⟩ := hu'.small hro I0.inv hp1 hp2
  obtain ⟨hz, hue⟩ := hus (by omega)
  have h10 : ro.g.canarySize = 8 := by unfold Cfg.canarySize; rw [hcan]; rfl
  have h11 := (classGeo ro.g hs.2.1).size_ge
  have ea : p + ro.g.slotSize cl - 8 = p + u := by omega
  have hpass : ∀ {h : List CEv} {s : CSys} {κ : BitVec 64} {B : World → Prop}, Follow ro.g ro ar calm p a cl i k κ B h s → Passes ro p s.σ → ∀ j, j < 8 →
      s.σ.vm.mem (p + u + j) = byteOf κ j := by
    intro h s κ B F hP j hj
    obtain ⟨s', n, w, r, S, I, k1, k2, _⟩ := F.world
    rw [← ea, ← k2, ← I.σ]
    exact hP.canary hro I.inv (by rw [I.σ, S.sc]) hmte hcan (by rw [I.σ]; exact k1) hz hj
  have hs0 : IsSmall ro s0'.σ p a cl i k := by rw [← I0.σ]; exact hs
  have F0 : Follow ro.g ro ar calm p a cl i k ((s0'.σ.sc a cl).slabs i).canary (fun _ => True) h0 s0 := ⟨hB0, s0', n0, w0, r0', S0, I0, hs0, rfl, trivial⟩
  have hm0 := hpass F0 ((hUsableSize_checks hro hmte p hin hp0).run hu.choose_spec)
  -- the application keeps it
  have F1 : Follow ro.g ro ar calm p a cl i k ((s0'.σ.sc a cl).slabs i).canary (fun _ => True) h1 s1 := by
    clear inv st2 hf
    induction st1 with
    | refl => exact F0
    | tail _ hI st ih => exact ih.app hg hro rfl hI st
  have hB2 := inv.blind F1.blind
  -- the call begins
  have F2 : Follow ro.g ro ar calm p a cl i k ((s0'.σ.sc a cl).slabs i).canary (fun w => w.G.blk p = .thr (t + 1)) (.inv t (.realloc p m) b :: h1) s2 ∧
      ∃ P, s2.run t = some (.realloc p m, P) ∧ P.Until ro p (fun x => x = .ptr 0 ∨ x = .ptr p) := by
    obtain ⟨s', n, w, r, S, I, k1, k2, _⟩ := F1.world
    obtain ⟨s2', h3, S2⟩ := inv.mirror hg r S F1.blind
    rcases h3 with ⟨x, v, e, _⟩ | h3
    · simp at e
    cases inv with
    | invoke t _ b hi hok hl2 =>
      have eb : b = p ∧ ((hold h1).live p).isSome = true := by
        obtain ⟨e1, e2⟩ := hl2
        obtain ⟨i, e2, _⟩ := e2.resolve_left hp0
        exact ⟨e1, by rw [e2]; rfl⟩
      obtain ⟨rfl, hlp⟩ := eb
      refine ⟨⟨hB2, ?_⟩, _, if_pos rfl, Prog.Until.realloc hro hmte (hg.arena _) hin hp0⟩
      have hsc := S2.sc
      obtain ⟨n', w', I', C⟩ := I.step hg hro rfl h3
      refine ⟨s2', n', w', r.next h3, S2, I', k1.of_sc ?_, ?_, ?_⟩
      · rw [S2.sc, S.sc]
      · rw [S2.sc, ← k2, S.sc]
      · have hlp' : ((hold (dropStores h1)).live b).isSome = true := by rw [hold_dropStores]; exact hlp
        cases C with
        | inv hi hl3 eh en er es ew =>
          simp only [dropStores, List.cons.injEq, CEv.inv.injEq, and_true] at eh
          obtain ⟨rfl, _, rfl⟩ := eh
          rcases ew with ⟨_, hno⟩ | ⟨rfl, _⟩
          · rw [hno] at hlp'; cases hlp'
          · exact give_self _ _ _
        | act hc hd eh => simp [dropStores] at eh
        | ret hc eh => simp [dropStores] at eh
        | fork hi eh => simp [dropStores] at eh
        | out eh he =>
          simp only [dropStores, List.cons.injEq, and_true] at eh
          subst eh
          rcases he with ⟨_, _, e⟩ | ⟨_, _, e⟩ | ⟨_, _, e⟩ <;> cases e
  -- it does not get past the check
  have key : s.run t = none ∨ (∃ x, s.run t = some (.realloc p m, .ret x) ∧ (x = .ptr 0 ∨ x = .ptr p)) ∨
      Follow ro.g ro ar calm p a cl i k ((s0'.σ.sc a cl).slabs i).canary (fun w => w.G.blk p = .thr (t + 1)) h2 s ∧
      ∃ P, s.run t = some (.realloc p m, P) ∧ (∀ x, P ≠ .ret x) ∧ P.Until ro p (fun x => x = .ptr 0 ∨ x = .ptr p) := by
    have hle : forks h1 ≤ forks (.inv t (.realloc p m) b :: h1) := forks_cons _ _
    clear hx
    induction st2 with
    | refl =>
      obtain ⟨F, P, hP, hU⟩ := F2
      cases P with
      | ret x => exact .inr (.inl ⟨x, hP, hU⟩)
      | act f k => exact .inr (.inr ⟨F, _, hP, (fun x e => by cases e), hU⟩)
    | @tail h3 h4 s3 s4 st2 hI st ih =>
      have hf1 := st2.forks
      have hf2 := st.forks
      have hnf : ∀ v, h4 ≠ .fork v :: h3 := fun v e => by
        subst e
        simp only [forks] at hf
        omega
      rcases ih (by omega) with e | ⟨x, hP, hR⟩ | ⟨F, P, hP, hnr, hU⟩
      · exact absurd e hI.2
      · -- the call returns
        by_cases e : s4.run t = s3.run t
        · exact .inr (.inl ⟨x, e.trans hP, hR⟩)
        · refine .inl ?_
          cases st with
          | invoke t' c' b' hi hok hl => exact absurd (if_neg fun e => by subst e; rw [hP] at hi; cases hi) e
          | step t' hc' he hf' => exact absurd (if_neg fun e => by subst e; rw [hP] at hc'; cases hc') e
          | ret t' hc' =>
            by_cases e' : t = t'
            · exact if_pos e'
            · exact absurd (if_neg e') e
          | fork t' hi => exact absurd rfl (hnf t')
          | _ => exact absurd rfl e
      · have hbad : ¬ Passes ro p s3.σ := fun hp => by
          obtain ⟨⟨j, hj, hne⟩, _⟩ := hI
          exact hne ((hpass F hp j hj).trans (hm0 j hj).symm)
        have hnr' : ∀ c x, s3.run t ≠ some (c, .ret x) := fun c' x e => by
          rw [hP] at e
          cases e
          exact hnr _ rfl
        have own : (s4.run t = s3.run t) ∨ (∃ c β l f k, s3.run t = some (c, .act (β := β) (l := l) f k) ∧ Spares ro p f) ∧
            ∃ P, s4.run t = some (.realloc p m, P) ∧ P.Until ro p (fun x => x = .ptr 0 ∨ x = .ptr p) := by
          cases st with
          | invoke t' c' b' hi hok hl =>
            exact .inl (if_neg fun e => by subst e; rw [hP] at hi; cases hi)
          | @step t' c' β l f k' hc' ch he σ' tl' b' hf' =>
            by_cases e : t = t'
            · subst e
              have hc2 := hc'
              rw [hP] at hc'
              cases hc'
              rcases hU with hch | ⟨hch, hk⟩
              · exact absurd (hch _ _ _ _ hf') hbad
              · exact .inr ⟨⟨_, _, _, _, _, hc2, hch⟩, _, if_pos rfl, hk _⟩
            · exact .inl (if_neg e)
          | ret t' hc' => exact .inl (if_neg fun e => by subst e; exact hnr' _ _ hc')
          | fork t' hi => exact absurd rfl (hnf t')
          | _ => exact .inl rfl
        have F' := F.own hg hro rfl st hnr' (fun c β l f k e e' => by
          obtain ⟨⟨_, _, _, _, _, e1, e2⟩, _⟩ := own.resolve_left e'
          rw [e] at e1
          cases e1
          exact e2) hnf
        rcases own with e | ⟨_, P', e, hU'⟩
        · exact .inr (.inr ⟨F', P, e.trans hP, hnr, hU⟩)
        · cases P' with
          | ret x => exact .inr (.inl ⟨x, e, hU'⟩)
          | act f k => exact .inr (.inr ⟨F', _, e, (fun x e => by cases e), hU'⟩)
  rcases key with e | ⟨x', e, hR⟩ | ⟨_, P, e, hn, _⟩
  · rw [e] at hx; cases hx
  · rw [e] at hx; cases hx; exact hR
  · rw [e] at hx; cases hx; exact absurd rfl (hn x)

/-- What the theorem assumes happens: a block of 104 usable bytes, with calls of other threads in progress, is overrun by a
byte; `realloc` to 101 bytes leaves it where it is. -/
example : ∃ h0 s0 h1 s1 s2 h2 s, WReach (exCfg false true) (exRo false true) (fun t => t % 4) false h0 s0 ∧
    (exRo false true).slabStart ≤ exA ∧ exA < (exRo false true).slabEnd ∧ ((hold h0).live exA).isSome = true ∧ Usable (exRo false true) s0.σ exA 104 ∧
    s0.phase 1 = some none ∧
    WSteps (exRo false true) (fun t => t % 4) false (fun h _ => ((hold h).live exA).isSome = true) h0 s0 h1 s1 ∧ h1 ≠ h0 ∧
    WStep (exRo false true) (fun t => t % 4) false h1 s1 (.inv 0 (.realloc exA 101) exA :: h1) s2 ∧
    WSteps (exRo false true) (fun t => t % 4) false (fun _ s => (∃ j, j < 8 ∧ s.σ.vm.mem (exA + 104 + j) ≠ s0.σ.vm.mem (exA + 104 + j)) ∧ s.run 0 ≠ none)
      (.inv 0 (.realloc exA 101) exA :: h1) s2 h2 s ∧ h2 ≠ .inv 0 (.realloc exA 101) exA :: h1 ∧ forks h2 = forks h1 ∧
    s.run 0 = some (.realloc exA 101, .ret (.ptr exA)) := by
  obtain ⟨h, s, r, h2⟩ := ex_wild (stats := false) (sealed := true) (calm := false) (exWild.take 8)
    (fun h s => decide ((hold h).live exA = some ⟨100, none⟩) && decide (usableB (exRo false true) s.σ exA = some 104) &&
      decide (s.phase 1 = some none) && (s.run 0).isNone && decide (s.σ.vm.mem (exA + 104) ≠ 9#8) && decide (s.σ.vm.prot ((exA + 104) / PAGE) = .rw)) (by decide +kernel)
  simp only [Bool.and_eq_true, decide_eq_true_eq, Option.isNone_iff_eq_none] at h2
  obtain ⟨⟨⟨⟨⟨k1, k2⟩, k3⟩, k4⟩, k5⟩, k6⟩ := h2
  have hm : (s.σ.vm.appStore (exA + 104) 9#8).mem (exA + 104) = 9#8 := by unfold Vm.appStore; simp [k6]
  have hp : (Call.realloc exA 101).prog (exRo false true) (0 % 4) = .ret (.ptr exA) := by
    have e : hRealloc (exRo false true) (0 % 4) exA 101 = .ret (some exA) := by
      unfold hRealloc
      dsimp only
      rw [if_neg (by decide), if_neg (by decide)]
      unfold reallocSized
      rw [if_pos (by decide)]
      dsimp only
      rw [if_pos (by decide +kernel)]
      rfl
    unfold Call.prog
    dsimp only
    rw [e]; rfl
  refine ⟨h, s, _, _, _, _, _, r, by decide, by decide, by rw [k1]; rfl, usableB_usable k2, k3,
    .tail .refl (by rw [k1]; rfl) (.store (exA + 104) 9#8), by simp, .invoke 0 (.realloc exA 101) exA k4 ?_ ?_,
    .tail .refl ⟨⟨0, by decide, ?_⟩, by simp [upd]⟩ (.store (exA + 105) 5#8), by simp, rfl, ?_⟩
  · exact Call.okB_ok (by decide)
  · exact ⟨rfl, .inr ⟨_, k1, by rintro ⟨⟨_, h, _⟩, _⟩; cases h⟩⟩
  · simp only [Nat.add_zero]
    rw [hm]; exact fun e => k5 e.symm
  · show some _ = _
    rw [hp]

end HM
