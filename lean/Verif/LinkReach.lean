import Verif.LinkStep
import Verif.Outside
/-
Every reachable state of the sequential machine is linked to its history.
-/
namespace HM

variable {ro : Ro} {t : Nat} {L : Nat → Option Info} {w : World}

theorem Env.fair {env : Bool × Option Bool} {ch : Choice} (h : Env env.1 ch) (ht : ∀ b, env.2 = some b → ch.memtag = b) : Fair .seq env ch :=
  ⟨h.1, fun e => absurd e (by simp), h.2, ht⟩

theorem Env.quiet (calm : Bool) : Env calm Choice.quiet := ⟨by decide, fun _ => ⟨by decide, fun _ => by simp [Choice.quiet]⟩⟩

/-! ### Calls -/

theorem Linked.ready (l : Linked ro L w) (t : Nat) : Ready ro t (w.lend t) :=
  ⟨(l.lend t).inv, (l.lend t).stat, lend_cases w t, (l.lend t).eff⟩

/-- The outcome of a call in a linked state. -/
def CallSpec (ro : Ro) (ar : Nat → Nat) (L : Nat → Option Info) (w : World) (s : Sys) (t : Nat) (c : Call) (chs : Nat → Choice) : Res (Sys × Ret) → Prop
  | .ok (s', r) => ∃ w', w'.σ = s'.σ ∧ Guar ro t (w.lend t) w' ∧ CallPost ro t (ar t) c (w.lend t) (s.tl t) r (s'.tl t) w' ∧
      StepOk ro t L (.call t c r) (w.lend t) w' ∧ (s'.tl t).unsealed = false ∧ ∀ u, u ≠ t → s'.tl u = s.tl u
  | .fatal m => ∃ n w1, Guar ro t (w.lend t) w1 ∧ CallF ro c (w.lend t) (.fatal m) (chs n) w1
  | .segv => ∃ n w1, Guar ro t (w.lend t) w1 ∧ CallF ro c (w.lend t) .segv (chs n) w1
  | .ub m => ∃ n w1, Guar ro t (w.lend t) w1 ∧ CallF ro c (w.lend t) (.ub m) (chs n) w1
  | .hang => ∃ n w1, Guar ro t (w.lend t) w1 ∧ CallF ro c (w.lend t) .hang (chs n) w1

theorem Sys.call_spec {ar : Nat → Nat} {s : Sys} {c : Call} {chs : Nat → Choice} (hro : RoOk ro) (l : Linked ro L w) (hw : w.σ = s.σ)
    (htl : (s.tl t).unsealed = false) (ha : ar t < ro.g.nArena) (hok : c.Ok) (hf : ∀ n, Env w.G.calm (chs n))
    (ht : ∀ n b, w.G.tags = some b → (chs n).memtag = b) :
    CallSpec ro ar L w s t c chs (s.call ro ar t c chs) := by
  have h := (call_wp hro (l.ready t) htl ha hok).run (l.ready t).inv (chs := chs) (fun n => (hf n).fair (ht n))
  unfold Sys.call
  rw [show (w.lend t).σ = s.σ from hw] at h
  revert h
  cases (c.prog ro (ar t)).run chs s.σ (s.tl t) with
  | ok r =>
    obtain ⟨σ', tl', r⟩ := r
    rintro ⟨G', h1, h2, h3⟩
    have e : (⟨σ', fun u => if u = t then tl' else s.tl u⟩ : Sys).tl t = tl' := if_pos rfl
    refine ⟨⟨σ', G'⟩, rfl, h1, ?_, callPost_step hro (l.lend t) (lend_cases w t) h1 hok h3, ?_, fun u hu => if_neg hu⟩
    · rw [e]; exact h3
    · rw [e]; exact h2
  | fatal m => exact id
  | segv => exact id
  | ub m => exact id
  | hang => exact id

/-! ### Stores -/

theorem appStore_prot (vm : Vm) (x : Nat) (v : BitVec 8) : (vm.appStore x v).prot = vm.prot := by
  unfold Vm.appStore; split <;> rfl

theorem appStore_mem (vm : Vm) (x : Nat) (v : BitVec 8) (y : Nat) (h : (vm.appStore x v).mem y ≠ vm.mem y) : y = x ∧ vm.prot (y / PAGE) = .rw := by
  unfold Vm.appStore at h
  by_cases k : vm.prot (x / PAGE) = .rw
  · rw [if_pos k] at h
    by_cases e : y = x
    · subst e; exact ⟨rfl, k⟩
    · exact absurd (if_neg e) h
  · rw [if_neg k] at h; exact absurd rfl h

theorem store_ginv (h : GInv ro w) (x : Nat) (v : BitVec 8) : GInv ro (w.setMem (w.σ.vm.appStore x v)) := by
  have hp : ∀ pg, (w.σ.vm.appStore x v).prot pg = w.σ.vm.prot pg := fun pg => by rw [appStore_prot]
  refine ⟨h.cls, fun a c ha hc => ?_, fun pg hpg hx => (hp pg).trans (h.gaps pg hpg hx), h.rt, h.reg, h.slabOwn, h.regOwn,
    fun r pg hr hx => (hp pg).trans (h.regRw r pg hr hx), fun r pg hr hx => (hp pg).trans (h.regLo r pg hr hx),
    fun r pg hr hx => (hp pg).trans (h.regHi r pg hr hx), h.qrOwn, h.qqOwn, h.qrOk, h.qqOk, h.qi,
    fun pg hpg => by show (w.σ.vm.appStore x v).prot pg ≠ _; rw [hp pg]; exact h.mapped pg hpg, h.blk, h.eff, h.cache,
    fun hc pg i ho => by show (w.σ.vm.appStore x v).prot pg ≠ _; rw [hp pg]; exact h.qprot hc pg i ho⟩
  obtain ⟨P, E, F, hi⟩ := h.cls a c ha hc
  refine SCVm.congrVm hc hi (h.clsVm a c ha hc) (fun x _ => hp _) (fun y _ hy => ?_)
  by_contra hn
  rw [(appStore_mem _ _ _ _ hn).2] at hy; exact absurd hy (by simp)

theorem Linked.store (l : Linked ro L w) (x : Nat) (v : BitVec 8) : Linked ro L (w.setMem (w.σ.vm.appStore x v)) :=
  ⟨store_ginv l.inv x v, ⟨l.stat.small, l.stat.large⟩, l.blk, l.eff, fun p i h => l.sized p i h⟩

/-- A store into a live block keeps everything else intact. -/
theorem content_store (hro : RoOk ro) (hi : GInv ro w) {p x : Nat} {v : BitVec 8} (h : UserByte ro w p x) (hc : Content ro w) :
    Content ro (w.setMem (w.σ.vm.appStore x v)) :=
  MemStep.content (p := p) hro hi ⟨appStore_prot _ _ _, fun y hy => by rw [(appStore_mem _ _ _ _ hy).1]; exact h⟩ hc

/-! ### Usable size -/

theorem usable_canary (hro : RoOk ro) (l : Linked ro L w) {p u a c i k : Nat} (h : Usable ro w.σ p u) (h0 : p ≠ 0) (hs : IsSmall ro w.σ p a c i k) :
    CanaryOk ro w p a c i := by
  obtain ⟨tl', h⟩ := h
  have hin := hs.inSlab hro l.inv
  unfold hUsableSize at h
  rw [if_neg h0, if_pos hin] at h
  obtain ⟨ha, hc, hcell⟩ := hro.sizeClassOf_lt hin
  obtain ⟨P, E, Fl, hinv⟩ := l.inv.cls _ _ ha hc
  have sp := memoryCorruptionCheckSmall_spec (p := p) (tag := false) hro.valid (hro.base ha hc) hc (inSlab_lt hro hin) hinv (l.inv.clsVm _ _ ha hc)
  have hok : memoryCorruptionCheckSmall ro.g false (ro.regionStart (ro.sizeClassOf p).1 (ro.sizeClassOf p).2) (ro.sizeClassOf p).2 p
      (w.σ.sc (ro.sizeClassOf p).1 (ro.sizeClassOf p).2) w.σ.vm = .ok () := by
    have e : tagging ro.g Choice.quiet = false := by simp [tagging, Choice.quiet]
    simp only [bind, unsealMeta, smallCheck, critical, Prog.one, Prog.bind, Prog.run, Bool.not_true, Bool.and_false, Bool.false_eq_true, if_false, e,
      if_neg (show ¬ (nClasses ro.g ≤ (ro.sizeClassOf p).2 ∨ ro.g.nArena ≤ (ro.sizeClassOf p).1) by omega)] at h
    revert h
    cases memoryCorruptionCheckSmall ro.g false (ro.regionStart (ro.sizeClassOf p).1 (ro.sizeClassOf p).2) (ro.sizeClassOf p).2 p
      (w.σ.sc (ro.sizeClassOf p).1 (ro.sizeClassOf p).2) w.σ.vm with
    | ok _ => exact fun _ => rfl
    | _ => exact fun h => by cases h
  rw [hok] at sp
  obtain ⟨i', k', h1, h2, h3⟩ := sp
  obtain ⟨rfl, rfl, rfl, rfl⟩ := IsSmall.uniq hro l.inv (show IsSmall ro w.σ p _ _ i' k' from ⟨ha, hc, h1, h2⟩) hs
  exact h3 rfl

/-- It becomes known whether memory tagging is enabled. -/
def World.setTags (w : World) (tg : Option Bool) : World := { w with G := { w.G with env := (w.G.calm, tg) } }

theorem GInv.setTags (hi : GInv ro w) (tg : Option Bool) : GInv ro (w.setTags tg) :=
  ⟨hi.cls, hi.clsVm, hi.gaps, hi.rt, hi.reg, hi.slabOwn, hi.regOwn, hi.regRw, hi.regLo, hi.regHi, hi.qrOwn, hi.qqOwn,
    hi.qrOk, hi.qqOk, hi.qi, hi.mapped, hi.blk, hi.eff, hi.cache, hi.qprot⟩

theorem Linked.setTags {L : Nat → Option Info} (l : Linked ro L w) (tg : Option Bool) : Linked ro L (w.setTags tg) :=
  ⟨l.inv.setTags tg, ⟨l.stat.small, l.stat.large⟩, l.blk, l.eff, l.sized⟩

theorem usable_sound (hro : RoOk ro) (l : Linked ro L w) {p u : Nat} (h : Usable ro w.σ p u) :
    (p = 0 ∧ u = 0) ∨ (p ≠ 0 ∧ (L p).isSome = true ∧ UsableIs ro w p u ∧ ∀ a c i k, IsSmall ro w.σ p a c i k → CanaryOk ro w p a c i) := by
  have h6 := fun h0 a c i k => usable_canary (a := a) (c := c) (i := i) (k := k) hro l h h0
  obtain ⟨tl', h⟩ := h
  have l := l.setTags none
  have h1 := (hUsableSize_wp (m := .seq) (t := 0) (F := fun _ _ _ => True) (p := p) (tl := ⟨0, false⟩) hro (l.ready 0).inv (fun _ => (l.ready 0).arg p)
    ⟨fun _ _ _ _ => trivial, fun _ _ _ _ _ => trivial, fun _ _ _ _ _ _ _ _ _ _ _ _ => trivial, fun _ _ _ _ _ _ _ _ _ _ => trivial⟩).run (l.ready 0).inv
    (chs := fun _ => Choice.quiet) (fun n => (Env.quiet _).fair fun _ e => nomatch e)
  rw [show ((w.setTags none).lend 0).σ = w.σ from rfl, h] at h1
  obtain ⟨G', _, _, _, _, ⟨h2, h3, _⟩ | ⟨h2, _, h3, h4, _⟩⟩ := h1
  · exact Or.inl ⟨h2, h3⟩
  · exact Or.inr ⟨h2, ((l.lend 0).blk p).mp (by rw [h3.blk]; simp), h4, h6 h2⟩

theorem usable_user (hro : RoOk ro) (l : Linked ro L w) {p u x : Nat} (h : Usable ro w.σ p u) (h1 : p ≤ x) (h2 : x < p + u) : UserByte ro w p x := by
  rcases usable_sound hro l h with ⟨rfl, rfl⟩ | ⟨h3, h4, h5, _⟩
  · omega
  · have m := l.mine (t := 0) h4
    have : UsableIs ro (w.lend 0) p u := h5
    exact this.user (t := 0) m (by unfold inRange; omega)

/-- The usable size exists for live blocks with an intact canary. -/
theorem usable_complete (hro : RoOk ro) (l : Linked ro L w) {p u : Nat} (hp : (L p).isSome = true) (hu : UsableIs ro w p u) (hc : ¬ CanaryBad ro w p) :
    Usable ro w.σ p u := by
  have l := l.setTags none
  have m := l.mine (t := 0) hp
  have h1 := (hUsableSize_wp (m := .seq) (t := 0) (F := fun _ _ _ => False) (p := p) (tl := ⟨0, false⟩) hro (l.ready 0).inv (fun _ => (l.ready 0).arg p)
    ⟨fun h => by rw [m.blk] at h; exact absurd h (by simp), fun _ h => absurd h hc, fun _ _ _ _ _ _ e => absurd e (by simp), fun _ _ _ _ e => absurd e (by simp)⟩).run (l.ready 0).inv
    (chs := fun _ => Choice.quiet) (fun n => (Env.quiet _).fair fun _ e => nomatch e)
  have h0 : p ≠ 0 := mine_ne_zero hro (l.ready 0).inv m
  rw [show ((w.setTags none).lend 0).σ = w.σ from rfl] at h1
  unfold Usable
  revert h1
  cases (hUsableSize ro p).run (fun _ => Choice.quiet) w.σ ⟨0, false⟩ with
  | ok r =>
    obtain ⟨σ', tl', v⟩ := r
    rintro ⟨G', _, _, _, h3, ⟨h2, _⟩ | ⟨_, _, _, h4, _⟩⟩
    · exact absurd h2 h0
    · have e : v = u := by
        have h4 : UsableIs ro w p v := h4
        exact h4.uniq hro l.inv hu
      have := h3 rfl
      have e2 : σ' = w.σ := congrArg World.σ this
      exact ⟨tl', by rw [e, e2]⟩
  | fatal m => rintro ⟨_, _, _, h⟩; exact h.elim
  | segv => rintro ⟨_, _, _, h⟩; exact h.elim
  | ub m => rintro ⟨_, _, _, h⟩; exact h.elim
  | hang => rintro ⟨_, _, _, h⟩; exact h.elim

/-! ### Steps -/

/-- The relation between the worlds before and after a step. -/
structure Next (ro : Ro) (e : Ev) (w w' : World) : Prop where
  delay : Delay ro w w'
  frees : ∀ a c, w'.G.frees a c ≤ w.G.frees a c + evFrees ro e a c
  pushes : w'.G.pushes ≤ w.G.pushes + evPush ro e
  untr : w'.G.untracked ≤ w.G.untracked + evUntr ro e

/-- A world that goes with a reachable state. -/
structure Fits (ro : Ro) (calm : Bool) (h : List Ev) (s : Sys) (w : World) : Prop where
  σ : w.σ = s.σ
  linked : Linked ro (live h) w
  calm : w.G.calm = calm
  tl : ∀ t, (s.tl t).unsealed = false
  others : ∀ pg, foreign h pg = true → ¬ Ours (w.G.own pg) ∧ s.σ.vm.prot pg ≠ .unmapped

section
variable {calm : Bool} {h : List Ev} {s : Sys}

/-- The pages in `F` are held by `k`. -/
def heldBy (F : Nat → Bool) (k : Nat) (own : Nat → Owner) (pg : Nat) : Owner := if F pg = true then .held k else own pg

/-- The pages of others are held by a thread `k`. -/
def World.hold (w : World) (h : List Ev) (k : Nat) : World := w.outside (heldBy (foreign h) k w.G.own) w.σ.vm

theorem Fits.outside (f : Fits ro calm h s w) (k : Nat) : Outside w (heldBy (foreign h) k w.G.own) w.σ.vm := by
  refine ⟨fun pg ho => if_neg fun hp => (f.others pg hp).1 ho, fun _ _ => rfl, fun _ _ => rfl, fun pg ho => ?_, fun pg _ h0 => ?_⟩
  · unfold heldBy
    split
    · exact fun hc => hc.2 k rfl
    · exact ho
  · by_cases hp : foreign h pg = true
    · rw [f.σ]; exact (f.others pg hp).2
    · rw [heldBy, if_neg hp] at h0
      exact f.linked.inv.mapped pg h0

theorem Fits.setTags (f : Fits ro calm h s w) (tg : Option Bool) : Fits ro calm h s (w.setTags tg) :=
  ⟨f.σ, f.linked.setTags tg, f.calm, f.tl, f.others⟩

theorem Fits.hold (hro : RoOk ro) (f : Fits ro calm h s w) (k : Nat) : Fits ro calm h s (w.hold h k) :=
  ⟨f.σ, (f.outside k).linked hro f.linked, f.calm, f.tl, fun pg hp => ⟨(f.outside k).other pg (f.others pg hp).1, (f.others pg hp).2⟩⟩

/-- A call leaves the pages of others alone. -/
theorem Fits.call_others {w' : World} {s' : Sys} {t : Nat} (hs : w'.σ = s'.σ) (f : Fits ro calm h s w)
    (hh : ∀ pg, foreign h pg = true → w.G.own pg = .held (t + 1)) (hg : Guar ro t (w.lend t) w') :
    (∀ pg, foreign h pg = true → ¬ Ours (w'.G.own pg) ∧ s'.σ.vm.prot pg ≠ .unmapped) ∧
      ∀ pg, foreign h pg = true → s'.σ.vm.prot pg = s.σ.vm.prot pg ∧ ∀ x, x / PAGE = pg → s'.σ.vm.mem x = s.σ.vm.mem x := by
  have sm := hg.same (.thr (t + 1)) (by simp) (by simp)
  have hF : ∀ pg, foreign h pg = true → (w.lend t).G.own pg = .held (t + 1) := hh
  have hσ : (w.lend t).σ = s.σ := f.σ
  have hp : ∀ pg, foreign h pg = true → s'.σ.vm.prot pg = s.σ.vm.prot pg := fun pg hp => by
    rw [← hs, ← hσ]; exact sm.prot _ rfl pg (hF pg hp)
  refine ⟨fun pg hq => ⟨fun hc => ?_, ?_⟩, fun pg hq => ⟨hp pg hq, ?_⟩⟩
  · exact hc.2 (t + 1) ((sm.pages _ rfl pg).mpr (hF pg hq))
  · rw [hp pg hq]; exact (f.others pg hq).2
  · rintro x rfl
    rw [← hs, ← hσ]
    exact sm.mem _ rfl x (hF _ hq)

theorem Sys.step_linked {ar : Nat → Nat} {s' : Sys} {a : Act} {e : Ev} (hro : RoOk ro) (har : ∀ t, ar t < ro.g.nArena) (f : Fits ro calm h s w)
    (ha : a.Ok calm) (hs : s.step ro ar a = .ok (s', e)) :
    ∃ w', Fits ro calm (e :: h) s' w' ∧ Next ro e w w' ∧
      ((∀ x v, a = .store x v → ∃ p, UserByte ro w p x) → Content ro w → Content ro w') := by
  cases a with
  | store x v =>
    cases hs
    refine ⟨w.setMem (w.σ.vm.appStore x v), ⟨by rw [← f.σ]; rfl, f.linked.store x v, f.calm, f.tl, fun pg hp => ⟨(f.others pg hp).1, ?_⟩⟩,
      ⟨Delay.trans (Delay.refl w) ?_, ?_, ?_, ?_⟩, fun h hc => ?_⟩
    · show (s.σ.vm.appStore x v).prot pg ≠ _
      rw [appStore_prot]; exact (f.others pg hp).2
    · exact ⟨fun _ _ => Nat.le_refl _, fun _ _ _ _ => Nat.le_refl _, fun _ _ _ _ _ _ => Nat.le_add_right _ _, Nat.le_refl _, fun _ => Nat.le_add_right _ _, rfl⟩
    · exact fun _ _ => Nat.le_add_right _ _
    · exact Nat.le_add_right _ _
    · exact Nat.le_add_right _ _
    · obtain ⟨p, hp⟩ := h x v rfl
      exact content_store hro f.linked.inv hp hc
  | errno t e =>
    cases hs
    refine ⟨w, ⟨f.σ, f.linked, f.calm, fun u => ?_, f.others⟩, ⟨Delay.refl w, fun _ _ => Nat.le_add_right _ _, Nat.le_add_right _ _, Nat.le_add_right _ _⟩, fun _ h => h⟩
    show (if _ then _ else _ : Tl).unsealed = false
    split <;> exact f.tl u
  | call t c chs =>
    have f := f.setTags none
    have f' := f.hold hro (t + 1)
    have h := Sys.call_spec (ar := ar) (s := s) (c := c) (chs := chs) hro f'.linked f'.σ (f.tl t) (har t) ha.1 (fun n => by
      rw [f'.calm]; exact ha.2 n) fun _ _ e => nomatch e
    unfold Sys.step at hs
    simp only at hs
    revert h hs
    cases s.call ro ar t c chs with
    | ok r =>
      obtain ⟨s1, r⟩ := r
      intro hs
      cases hs
      rintro ⟨w', h1, h2, h3, ⟨h4, A, _, h5⟩, h6, h7⟩
      have d := ((f.outside (t + 1)).delay.trans (lend_delay _)).trans h2.delay
      refine ⟨w'.setTags w.G.tags, ⟨h1, h4.setTags _, (h5.calm.trans rfl).trans f.calm, fun u => ?_, (f'.call_others h1 (fun pg hp => if_pos hp) h2).1⟩,
        ⟨⟨d.frees, d.made, d.slot, d.pushes, d.page, Prod.ext (congrArg Prod.fst d.env :) rfl⟩, h5.frees rfl, h5.pushes rfl, h5.untr rfl⟩,
        fun _ hc => h2.content ((f.outside (t + 1)).content hro f.linked.inv hc)⟩
      by_cases e : u = t
      · rw [e]; exact h6
      · rw [h7 u e]; exact f.tl u
    | fatal m => intro hs; cases hs
    | segv => intro hs; cases hs
    | ub m => intro hs; cases hs
    | hang => intro hs; cases hs

/-- The world after someone else has changed page `pg`. -/
def World.foreign (w : World) (pg : Nat) (pr : Prot) (data : Nat → BitVec 8) : World :=
  w.outside (fun q => if q = pg then .none else w.G.own q) (w.σ.vm.foreign pg pr data)

theorem foreign_outside (hi : GInv ro w) {pg : Nat} (hnot : ¬ Ours (w.G.own pg)) (pr : Prot) (data : Nat → BitVec 8) :
    Outside w (fun q => if q = pg then .none else w.G.own q) (w.σ.vm.foreign pg pr data) := by
  have hne : ∀ q, Ours (w.G.own q) → q ≠ pg := fun q ho e => hnot (e ▸ ho)
  refine ⟨fun q ho => if_neg (hne q ho), fun q ho => if_neg (hne q ho), fun x ho => if_neg (hne _ ho), fun q ho => ?_, fun q ho h0 => ?_⟩
  · split
    · exact fun hc => hc.1 rfl
    · exact ho
  · by_cases e : q = pg
    · exact absurd (if_pos e) h0
    · simp only [if_neg e] at h0
      show (if q = pg then _ else _) ≠ _
      rw [if_neg e]
      exact hi.mapped q h0

theorem Fits.not_ours (f : Fits ro calm h s w) {pg : Nat} (hp : Foreign h s.σ.vm pg) : ¬ Ours (w.G.own pg) := by
  rcases hp with hp | hp
  · exact (f.others pg hp).1
  · exact fun hc => f.linked.inv.mapped pg hc.1 (by rw [f.σ]; exact hp)

/-- Someone else changes a page. -/
theorem Fits.other (hro : RoOk ro) (f : Fits ro calm h s w) {pg : Nat} (hp : Foreign h s.σ.vm pg) (pr : Prot) (data : Nat → BitVec 8) :
    Fits ro calm (.foreign pg (pr != .unmapped) :: h) { s with σ := { s.σ with vm := s.σ.vm.foreign pg pr data } } (w.foreign pg pr data) ∧
      Next ro (.foreign pg (pr != .unmapped)) w (w.foreign pg pr data) ∧ (Content ro w → Content ro (w.foreign pg pr data)) := by
  have hnot := f.not_ours hp
  have o := foreign_outside f.linked.inv hnot pr data
  refine ⟨⟨by rw [← f.σ]; rfl, o.linked hro f.linked, f.calm, f.tl, fun q hq => ?_⟩,
    ⟨o.delay, fun _ _ => Nat.le_add_right _ _, Nat.le_add_right _ _, Nat.le_add_right _ _⟩, o.content hro f.linked.inv⟩
  have hq : (if q = pg then (pr != .unmapped) else HM.foreign h q) = true := hq
  show ¬ Ours ((w.foreign pg pr data).G.own q) ∧ (if q = pg then pr else s.σ.vm.prot q) ≠ _
  by_cases e : q = pg
  · subst e
    rw [if_pos rfl]
    exact ⟨o.other q hnot, by rw [if_pos rfl] at hq; simpa using hq⟩
  · rw [if_neg e] at hq ⊢
    exact ⟨o.other q (f.others q hq).1, (f.others q hq).2⟩

end

/-- Conditions on the configuration and on the assignment of arenas to threads: the configuration passes the static
assertions, the random array of the quarantine for free slabs is not empty, and every thread uses an existing arena. -/
structure Good (g : Cfg) (ar : Nat → Nat) : Prop where
  valid : g.Valid
  freeQ : 1 ≤ g.freeSlabsQ
  arena : ∀ t, ar t < g.nArena

section
variable {g : Cfg} {ar : Nat → Nat} {calm : Bool} {D : Client} {h : List Ev} {s : Sys}

theorem Reach.roOk (hg : Good g ar) (r : Reach g ro ar calm D h s) : RoOk ro ∧ ro.g = g := by
  induction r with
  | init hi _ => exact ⟨hi.roOk hg.valid hg.freeQ, hi.post.cfg⟩
  | step _ _ _ _ ih => exact ih
  | other _ _ _ _ _ ih => exact ih

/-- The steps from one reachable state to another. -/
inductive Steps (ro : Ro) (ar : Nat → Nat) (calm : Bool) (D : Client) (h0 : List Ev) (s0 : Sys) : List Ev → Sys → Prop where
  | refl : Steps ro ar calm D h0 s0 [] s0
  | step {evs : List Ev} {s s' : Sys} {a : Act} {e : Ev} (hr : Steps ro ar calm D h0 s0 evs s) (ha : a.Ok calm) (hd : D (evs ++ h0) s a)
      (hs : s.step ro ar a = .ok (s', e)) : Steps ro ar calm D h0 s0 (e :: evs) s'
  | other {evs : List Ev} {s : Sys} (hr : Steps ro ar calm D h0 s0 evs s) (pg : Nat) (pr : Prot) (data : Nat → BitVec 8)
      (hp : Foreign (evs ++ h0) s.σ.vm pg) :
      Steps ro ar calm D h0 s0 (.foreign pg (pr != .unmapped) :: evs) { s with σ := { s.σ with vm := s.σ.vm.foreign pg pr data } }

/-- A reachable state was reached by way of an earlier one. -/
theorem Reach.split {evs h0 : List Ev} (r : Reach g ro ar calm D (evs ++ h0) s) : ∃ s0, Reach g ro ar calm D h0 s0 ∧ Steps ro ar calm D h0 s0 evs s := by
  induction evs generalizing s with
  | nil => exact ⟨s, r, .refl⟩
  | cons e evs ih =>
    cases r with
    | step hr ha hd hs =>
      obtain ⟨s0, h1, h2⟩ := ih hr
      exact ⟨s0, h1, .step h2 ha hd hs⟩
    | other hr pg pr data hp =>
      obtain ⟨s0, h1, h2⟩ := ih hr
      exact ⟨s0, h1, Steps.other h2 pg pr data hp⟩

/-- Total over a list of events. -/
def total (f : Ev → Nat) : List Ev → Nat
  | [] => 0
  | e :: l => f e + total f l

/-- The relation between the worlds before and after some steps. -/
structure Later (ro : Ro) (evs : List Ev) (w w' : World) : Prop where
  delay : Delay ro w w'
  frees : ∀ a c, w'.G.frees a c ≤ w.G.frees a c + total (fun e => evFrees ro e a c) evs
  pushes : w'.G.pushes ≤ w.G.pushes + total (evPush ro) evs
  untr : w'.G.untracked ≤ w.G.untracked + total (evUntr ro) evs

theorem Steps.fits {evs h0 : List Ev} {s0 : Sys} {w0 : World} (hro : RoOk ro) (har : ∀ t, ar t < ro.g.nArena) (r : Steps ro ar calm D h0 s0 evs s)
    (f : Fits ro calm h0 s0 w0) : ∃ w, Fits ro calm (evs ++ h0) s w ∧ Later ro evs w0 w ∧
      ((∀ h s a, D h s a → goodClient ro h s a) → Content ro w0 → Content ro w) := by
  induction r with
  | refl => exact ⟨w0, f, ⟨Delay.refl w0, fun _ _ => Nat.le_refl _, Nat.le_refl _, Nat.le_refl _⟩, fun _ h => h⟩
  | step hr ha hd hs ih =>
    obtain ⟨w1, f1, l1, c1⟩ := ih
    obtain ⟨w2, h1, n, h5⟩ := Sys.step_linked hro har f1 ha hs
    refine ⟨w2, h1, ⟨l1.delay.trans n.delay, fun a c => ?_, ?_, ?_⟩, fun hD hc => h5 (fun x v e => ?_) (c1 hD hc)⟩
    · have := l1.frees a c; have := n.frees a c; show _ ≤ _ + (_ + total _ _); simp only; omega
    · have := l1.pushes; have := n.pushes; show _ ≤ _ + (_ + total _ _); omega
    · have := l1.untr; have := n.untr; show _ ≤ _ + (_ + total _ _); omega
    · subst e
      obtain ⟨p, u, q1, q2, q3, q4⟩ := hD _ _ _ hd
      rw [← f1.σ] at q2
      exact ⟨p, usable_user hro f1.linked q2 q3 q4⟩
  | other hr pg pr data hp ih =>
    obtain ⟨w1, f1, l1, c1⟩ := ih
    obtain ⟨h1, n, h5⟩ := f1.other hro hp pr data
    refine ⟨_, h1, ⟨l1.delay.trans n.delay, fun a c => ?_, ?_, ?_⟩, fun hD hc => h5 (c1 hD hc)⟩
    · have := l1.frees a c; have := n.frees a c; show _ ≤ _ + (_ + total _ _); simp only; omega
    · have := l1.pushes; have := n.pushes; show _ ≤ _ + (_ + total _ _); omega
    · have := l1.untr; have := n.untr; show _ ≤ _ + (_ + total _ _); omega

theorem fits_init {σ : St} {tl : Nat → Tl} (hg : Good g ar) (hi : Initialised g ro σ) (htl : ∀ t, (tl t).unsealed = false) (calm : Bool) :
    Fits ro calm [] ⟨σ, tl⟩ ⟨σ, Gh.init ro calm⟩ ∧ Content ro ⟨σ, Gh.init ro calm⟩ := by
  obtain ⟨h1, h2, h3⟩ := hi.inv hg.valid hg.freeQ calm
  exact ⟨⟨rfl, ⟨h1, h2, fun _ => ⟨fun h => absurd rfl h, fun h => absurd h (by simp [live])⟩, fun _ => rfl, fun _ _ h => absurd h (by simp [live])⟩, rfl, htl, fun _ h => (by cases h)⟩, h3⟩

/-- Every reachable state satisfies the invariant, and its blocks are the live blocks of the history. -/
theorem Reach.fits (hg : Good g ar) (r : Reach g ro ar calm D h s) : ∃ w, Fits ro calm h s w ∧ w.G.untracked ≤ total (evUntr ro) h ∧
    ((∀ h s a, D h s a → goodClient ro h s a) → Content ro w) := by
  obtain ⟨hro, e⟩ := r.roOk hg
  have r' : Reach g ro ar calm D (h ++ []) s := by rw [List.append_nil]; exact r
  obtain ⟨s0, h1, h2⟩ := r'.split
  generalize he : ([] : List Ev) = h0 at h1
  cases h1 with
  | step => cases he
  | other => cases he
  | init hi htl =>
    obtain ⟨f0, c0⟩ := fits_init hg hi htl calm
    obtain ⟨w, f, l, c⟩ := h2.fits hro (fun t => by rw [e]; exact hg.arena t) f0
    clear he
    rw [List.append_nil] at f
    refine ⟨w, f, ?_, fun hD => c hD c0⟩
    have := l.untr
    simpa [Gh.init] using this

end

end HM
