import Verif.Props.ThreadsLayout
import Verif.ConcCount
/-
Executions with stray stores, followed from one state to another, and what is known of a small block meanwhile: as long as
the application has it, or a call of one thread has it in hand, neither its place nor its canary changes.
-/
namespace HM

/-- Any number of steps; every state but the last satisfies `I`. -/
inductive WSteps (ro : Ro) (ar : Nat → Nat) (calm : Bool) (I : List CEv → CSys → Prop) (h0 : List CEv) (s0 : CSys) : List CEv → CSys → Prop where
  | refl : WSteps ro ar calm I h0 s0 h0 s0
  | tail {h h' : List CEv} {s s' : CSys} (r : WSteps ro ar calm I h0 s0 h s) (hI : I h s) (st : WStep ro ar calm h s h' s') : WSteps ro ar calm I h0 s0 h' s'

variable {g : Cfg} {ro : Ro} {ar : Nat → Nat} {calm : Bool} {h h' : List CEv} {s s' : CSys}

theorem WReach.steps {I : List CEv → CSys → Prop} {h0 : List CEv} {s0 : CSys} (r : WReach g ro ar calm h0 s0) (st : WSteps ro ar calm I h0 s0 h s) :
    WReach g ro ar calm h s := by
  induction st with
  | refl => exact r
  | tail _ _ st ih => exact ih.next st

/-- Apart from the actions of calls, nothing changes the slabs. -/
theorem CStep.sc (st : CStep ro ar calm h s h' s') : s'.σ.sc = s.σ.sc ∨ h' = h := by
  cases st with
  | step => exact .inr rfl
  | _ => exact .inl rfl

/-- A step keeps the place and the canary of a small block that the application has before and after it. -/
theorem CInv.keep_app {n n' : Nat → Nat} {w w' : World} (i : CInv ro calm n h s w) (i' : CInv ro calm n' h' s' w')
    (st : CStep ro ar calm h s h' s') (c : Change ro ar h s n w h' s' n' w') {p a cl j k : Nat} (hl : ((hold h).live p).isSome = true)
    (hs : IsSmall ro s.σ p a cl j k) : IsSmall ro s'.σ p a cl j k ∧ ((s'.σ.sc a cl).slabs j).canary = ((s.σ.sc a cl).slabs j).canary := by
  rcases st.sc with e | e
  · unfold IsSmall at hs ⊢
    rw [e]; exact ⟨hs, rfl⟩
  · cases c with
    | act hc hd eh en er es =>
      have := (hd.toTrans.same .app (by simp) (by simp)).small p a cl j k ((i.app p).mpr hl) (by rw [i.σ]; exact hs)
      rw [i.σ, i'.σ] at this
      exact ⟨this.1, this.2.1⟩
    | inv hi hl eh => rw [e] at eh; simp at eh
    | ret hc eh => rw [e] at eh; simp at eh
    | fork hi eh => rw [e] at eh; simp at eh
    | out eh => rw [e] at eh; simp at eh

theorem Prog.ne_cont {α : Type} (P : Prog α) : ∀ {β : Type} {l : Option Sect} {f : Choice → St → Tl → Res (St × Tl × β)} {k : β → Prog α} (b : β),
    P = .act (l := l) f k → k b ≠ P := by
  induction P with
  | ret => intro β l f k b e; cases e
  | act f k ih =>
    intro β l f' k' b e e'
    cases e
    exact ih b b e' rfl

theorem IsSmall.of_sc {σ σ' : St} {p a c i k : Nat} (h : IsSmall ro σ p a c i k) (e : σ'.sc = σ.sc) : IsSmall ro σ' p a c i k := by
  unfold IsSmall at h ⊢
  rw [e]; exact h

/-- A small block that a call of thread `t` has in hand keeps its place and its canary in every step other than a fork, unless
it is a step of that call which changes the slabs, or its return. -/
theorem CInv.keep_thr (hg : Good g ar) (hro : RoOk ro) (eg : ro.g = g) {n : Nat → Nat} {w : World} (i : CInv ro calm n h s w)
    (st : CStep ro ar calm h s h' s') {p a cl j k t : Nat} (hb : w.G.blk p = .thr (t + 1)) (hs : IsSmall ro s.σ p a cl j k)
    (hn : ∀ c x, s.run t ≠ some (c, .ret x)) (own : s'.run t = s.run t ∨ s'.σ.sc = s.σ.sc) (hf : ∀ u, h' ≠ .fork u :: h) :
    ∃ n' w', CInv ro calm n' h' s' w' ∧ w'.G.blk p = .thr (t + 1) ∧ IsSmall ro s'.σ p a cl j k ∧
      ((s'.σ.sc a cl).slabs j).canary = ((s.σ.sc a cl).slabs j).canary := by
  by_cases hh : h' = h
  · cases st with
    | @step u c β l f k0 hc ch he σ' tl' b hf' =>
      obtain ⟨ch', hst, hch, _⟩ := i.settle hc he
      have h1 := (i.wp hc).2 _ (i.env ▸ hst.fair)
      rw [hch, i.σ, hf'] at h1
      obtain ⟨G', h2, h3⟩ := h1
      have I := i.act h2.toTrans (tl' := tl') (P' := some (c, k0 b))
        (fun c' P e => by cases e; exact ⟨fun hp => ((i.run u _ _ hc).1 hp).2 _, fun w' r => h3 w' r⟩) (fun e => by cases e)
      refine ⟨n, _, I, ?_⟩
      by_cases hu : u = t
      · subst hu
        have e : σ'.sc = s.σ.sc := own.resolve_left fun e => by
          rw [hc, show (⟨σ', upd s.tl u tl', upd s.run u (some (c, k0 b)), s.start⟩ : CSys).run u = some (c, k0 b) from if_pos rfl] at e
          exact Prog.ne_cont _ b rfl (by simpa using e)
        have hs' : IsSmall ro σ' p a cl j k := hs.of_sc e
        refine ⟨?_, hs', by rw [e]⟩
        have h4 := (h2.inv.blk p).mpr (.inl ⟨a, cl, j, k, hs'⟩)
        by_contra h5
        exact h5 (((h2.toTrans.same _ h4 h5).blk p).mp rfl ▸ hb)
      · have h4 := h2.toTrans.same (.thr (t + 1)) (by simp) (by simpa using fun e => hu e.symm)
        have h5 := h4.small p a cl j k hb (by rw [i.σ]; exact hs)
        rw [i.σ] at h5
        exact ⟨(h4.blk p).mpr hb, h5.1, h5.2.1⟩
    | _ => simp at hh
  · have e := st.sc.resolve_right hh
    obtain ⟨n', w', i', c⟩ := i.step hg hro eg st
    refine ⟨n', w', i', ?_, hs.of_sc e, by rw [e]⟩
    cases c with
    | act hc hd eh => exact absurd eh hh
    | @inv t' c b hi hl eh en er es ew =>
      rcases ew with ⟨rfl, _⟩ | ⟨rfl, hl⟩
      · exact hb
      · rw [give_other _ _ fun e => ?_]
        · exact hb
        · rw [e, (i.app b).mpr hl] at hb; cases hb
    | @ret t' c x hc eh en er es ew =>
      rcases ew with rfl | ⟨q, hq, _, rfl⟩
      · exact hb
      · rw [give_other _ _ fun e => ?_]
        · exact hb
        · rw [e, hq] at hb
          simp only [Holder.thr.injEq, Nat.add_right_cancel_iff] at hb
          subst hb
          exact hn _ _ hc
    | fork hi eh => exact absurd eh (hf _)
    | out eh he en er es hd eb => rw [eb]; exact hb

end HM
