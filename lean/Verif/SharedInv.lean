import Verif.Shared
import Verif.Props.Threads
/-
Queries about blocks that the application keeps: every action of a query succeeds, changes nothing that is shared, and the
answer is right.
-/
namespace HM

variable {ro : Ro} {g : Cfg} {ar : Nat → Nat} {calm : Bool} {h : List CEv} {s : CSys} {w : World}

/-- The worlds in which block `b` is one of the application with `u` usable bytes. -/
structure AppHas (ro : Ro) (calm : Bool) (b u : Nat) (w : World) : Prop where
  inv : GInv ro w
  content : Content ro w
  env : w.G.env = (calm, none)
  blk : b ≠ 0 → w.G.blk b = .app ∧ UsableIs ro w b u

/-- Running `P` from thread-local state `tl`, every action being performed in any state in which block `b` is one of the
application: nothing but thread-local state is changed, and on return `R` holds. -/
def Reads (ro : Ro) (calm : Bool) (b u : Nat) {α : Type} (R : α → Tl → Prop) : Prog α → Tl → Prop
  | .ret a, tl => R a tl
  | .act f k, tl => ∀ ch w, Env calm ch → AppHas ro calm b u w → ∃ tl' x, f ch w.σ tl = .ok (w.σ, tl', x) ∧ tl'.errno = tl.errno ∧ Reads ro calm b u R (k x) tl'

theorem Reads.bind {b u : Nat} {α β : Type} {R : β → Tl → Prop} {P : Prog α} {k : α → Prog β} {tl : Tl}
    (hp : Reads ro calm b u (fun a tl' => Reads ro calm b u R (k a) tl') P tl) : Reads ro calm b u R (P >>= k) tl := by
  induction P generalizing tl with
  | ret a => exact hp
  | act f k' ih =>
    intro ch w he hk
    obtain ⟨tl', x, h1, h2, h3⟩ := hp ch w he hk
    exact ⟨tl', x, h1, h2, ih x h3⟩

theorem Reads.mono {b u : Nat} {α : Type} {R R' : α → Tl → Prop} {P : Prog α} {tl : Tl} (hp : Reads ro calm b u R P tl) (hr : ∀ a tl', R a tl' → R' a tl') :
    Reads ro calm b u R' P tl := by
  induction P generalizing tl with
  | ret a => exact hr _ _ hp
  | act f k' ih =>
    intro ch w he hk
    obtain ⟨tl', x, h1, h2, h3⟩ := hp ch w he hk
    exact ⟨tl', x, h1, h2, ih x h3⟩

/-- A query unseals the metadata, reads it in one section, and seals it again: its actions may be performed at different
moments if its sequential specification holds at each of them. -/
theorem Reads.query {b u : Nat} {α β : Type} {l : Option Sect} {f : Choice → St → Tl → Res (St × Tl × β)} {v : β → α} {R : α → Tl → Prop} {tl : Tl}
    (hR : ∀ a tl', R a tl' → tl'.errno = tl.errno)
    (hw : ∀ w, AppHas ro calm b u w → ∃ w1, w1.σ = w.σ ∧ w1.G.env = w.G.env ∧ WP .seq ro 1 (fun _ _ _ => False)
      (unsealMeta >>= fun _ => Prog.act (l := l) f .ret >>= fun x => sealMeta >>= fun _ => pure (v x)) (fun r tl' w' => w'.σ = w.σ ∧ R r tl') tl w1) :
    Reads ro calm b u R (unsealMeta >>= fun _ => Prog.act (l := l) f .ret >>= fun x => sealMeta >>= fun _ => pure (v x)) tl := by
  refine fun _ _ _ _ => ⟨_, (), rfl, rfl, fun ch w he hk => ?_⟩
  obtain ⟨w1, e1, e2, hw⟩ := hw w hk
  obtain ⟨G1, d1, h1⟩ := hw.2 ch (e2 ▸ hk.env ▸ (Env.fair (env := (calm, none)) he fun _ e => nomatch e))
  have hf1 : Fair .seq G1.env ch := by
    rw [show G1.env = w1.G.env from d1.delay.env, e2, hk.env]; exact (Env.fair (env := (calm, none)) he fun _ e => nomatch e)
  have h2 := (h1 ⟨w1.σ, G1⟩ rfl).2 ch hf1
  change match f ch w1.σ { tl with unsealed := true } with | .ok (σ', tl', b) => _ | .fatal msg => _ | .segv => _ | .ub s => _ | .hang => _ at h2
  rw [e1] at h2
  revert h2
  cases hf : f ch w.σ { tl with unsealed := true } with
  | ok y =>
    obtain ⟨σ', tl', x⟩ := y
    rintro ⟨G2, d2, h3⟩
    have hf2 : Fair .seq G2.env ch := by rw [show G2.env = G1.env from d2.delay.env]; exact hf1
    obtain ⟨G3, _, h4⟩ := (h3 ⟨σ', G2⟩ rfl).2 ch hf2
    obtain ⟨e3, e4⟩ := h4 _ rfl
    have e3 : σ' = w.σ := e3
    subst e3
    exact ⟨tl', x, rfl, show ({ tl' with unsealed := false } : Tl).errno = _ from hR _ _ e4, fun _ _ _ _ => ⟨_, (), rfl, rfl, e4⟩⟩
  | fatal m => exact False.elim
  | segv => exact False.elim
  | ub m => exact False.elim
  | hang => exact False.elim

section
variable {b u : Nat}

theorem AppHas.mine (hk : AppHas ro calm b u w) (h0 : b ≠ 0) : GInv ro (w.give b (.thr 1)) ∧ Mine 1 b (w.give b (.thr 1)) ∧ UsableIs ro (w.give b (.thr 1)) b u := by
  obtain ⟨h1, h2⟩ := hk.blk h0
  have he := app_eff hk.inv h1
  exact ⟨give_inv hk.inv (by rw [h1]; simp) (by simp) he, ⟨give_self _ _ _, he⟩, h2⟩

theorem sealed_eq {tl tl' : Tl} (hs : tl.unsealed = false) (h1 : tl'.errno = tl.errno) (h2 : tl'.unsealed = false) : tl' = tl := by
  cases tl; cases tl'; cases hs; cases h1; cases h2; rfl

/-- `malloc_usable_size`. -/
theorem reads_usable (hro : RoOk ro) {tl : Tl} (hs : tl.unsealed = false) (h0 : b ≠ 0) : Reads ro calm b u (fun n tl' => tl' = tl ∧ n = u) (hUsableSize ro b) tl := by
  have spec : ∀ w, AppHas ro calm b u w → ∃ w1, w1.σ = w.σ ∧ w1.G.env = w.G.env ∧ WP .seq ro 1 (fun _ _ _ => False) (hUsableSize ro b)
      (fun r tl' w' => w'.σ = w.σ ∧ tl' = tl ∧ r = u) tl w1 := by
    intro w hk
    obtain ⟨k1, k2, k3⟩ := hk.mine h0
    refine ⟨w.give b (.thr 1), rfl, rfl, (hUsableSize_wp hro k1 (fun _ => Or.inl k2) ⟨fun e => ?_, fun _ e => ?_, fun _ _ _ _ _ _ e => (by cases e), fun _ _ _ _ e => (by cases e)⟩).mono fun n tl' w' h => ?_⟩
    · rw [k2.blk] at e; cases e
    · exact (hk.content.canary_ok hk.inv e).elim
    · obtain ⟨h1, _, h3, h4⟩ := h
      rw [h3 rfl]
      obtain ⟨e, _⟩ | ⟨_, h5, _, h6, _⟩ := h4
      · exact absurd e h0
      · exact ⟨rfl, sealed_eq hs h1 h5, h6.uniq hro k1 k3⟩
  unfold hUsableSize at *
  simp only [if_neg h0] at *
  cases hin : ro.inSlab b with
  | true =>
    simp only [hin, if_true] at *
    exact .query (fun _ _ h => by rw [h.1]) spec
  | false =>
    simp only [hin] at *
    exact .query (fun _ _ h => by rw [h.1]) spec

/-- `malloc_object_size`. -/
theorem reads_object (hro : RoOk ro) {tl : Tl} (hs : tl.unsealed = false) (h0 : b ≠ 0) {x : Nat} (h1 : b ≤ x) (h2 : x < b + u) :
    Reads ro calm b u (fun n tl' => tl' = tl ∧ ObjectSizeIs ro b u x n) (hObjectSize ro x) tl := by
  have hx : x ≠ 0 := by omega
  have spec : ∀ w, AppHas ro calm b u w → ∃ w1, w1.σ = w.σ ∧ w1.G.env = w.G.env ∧ WP .seq ro 1 (fun _ _ _ => False) (hObjectSize ro x)
      (fun r tl' w' => w'.σ = w.σ ∧ tl' = tl ∧ ObjectSizeIs ro b u x r) tl w1 := by
    intro w hk
    obtain ⟨k1, k2, k3⟩ := hk.mine h0
    refine ⟨w.give b (.thr 1), rfl, rfl, (hObjectSize_conc (m := .seq) hro k1 k2 k3 h1 h2).mono fun n tl' w' h => ?_⟩
    obtain ⟨j1, j2, j4, j3⟩ := h
    exact ⟨by rw [show w' = w.give b (.thr 1) from j2]; rfl, sealed_eq hs j4 j1, j3⟩
  unfold hObjectSize at *
  simp only [if_neg hx] at *
  cases hin : ro.inSlab x with
  | true =>
    simp only [hin, if_true] at *
    exact .query (fun _ _ h => by rw [h.1]) spec
  | false =>
    simp only [hin] at *
    exact .query (fun _ _ h => by rw [h.1]) spec

end

/-- `r` is the right answer to `c`, asked about a block `b` with `u` usable bytes. -/
def Answer (ro : Ro) (b u : Nat) (r : Ret) : Call → Prop
  | .usableSize p => p = b ∧ r = .num (if b = 0 then 0 else u)
  | .objectSize x => (b = 0 ∧ x = 0 ∧ r = .num 0) ∨ (b ≠ 0 ∧ b ≤ x ∧ x < b + u ∧ ∃ n, r = .num n ∧ ObjectSizeIs ro b u x n)
  | _ => False

/-- A query in progress: its block is one of the application, and it will give the right answer. `tl0` is the state of the
thread when it asked. -/
structure Asking (ro : Ro) (calm : Bool) (h : List CEv) (σ : St) (a : Ask) (tl0 tl : Tl) : Prop where
  live : a.blk ≠ 0 → ((hold h).live a.blk).isSome = true
  reads : ∃ u, (a.blk ≠ 0 → Usable ro σ a.blk u) ∧ Reads ro calm a.blk u (fun r tl' => tl' = tl0 ∧ Answer ro a.blk u r a.call) a.prog tl

theorem CInv.appHas {n0 : Nat → Nat} (hro : RoOk ro) (i : CInv ro calm n0 h s w) {b u : Nat} (hl : b ≠ 0 → ((hold h).live b).isSome = true) (hu : b ≠ 0 → Usable ro s.σ b u) :
    AppHas ro calm b u w :=
  ⟨i.inv, i.content, i.env, fun h0 => ⟨(i.app b).mpr (hl h0), (i.usable_iff hro (hl h0)).mp (hu h0)⟩⟩

theorem live_ne_zero {n0 : Nat → Nat} (hro : RoOk ro) (i : CInv ro calm n0 h s w) {b : Nat} (hl : ((hold h).live b).isSome = true) : b ≠ 0 := by
  rintro rfl
  have := (i.app 0).mpr hl
  rw [blk_zero hro i.inv] at this; cases this

/-- A query begins. -/
theorem Asking.begin (hg : Good g ar) (r : CReach g ro ar calm h s) {t b : Nat} {c : Call} (hi : s.run t = none) (hc : c.asks) (hl : Lends ro (hold h) s.σ b c) :
    Asking ro calm h s.σ ⟨c, c.prog ro (ar t), b⟩ (s.tl t) (s.tl t) := by
  obtain ⟨hro, _⟩ := r.roOk hg
  obtain ⟨w, n0, I⟩ := r.inv hg
  have hs := I.tl t hi
  cases c with
  | usableSize p =>
    obtain ⟨rfl, hl⟩ := hl
    by_cases h0 : b = 0
    · subst h0
      exact ⟨fun e => absurd rfl e, 0, fun e => absurd rfl e, rfl, rfl, rfl⟩
    · have hl := hl.resolve_left h0
      obtain ⟨j, e⟩ := Option.isSome_iff_exists.mp hl
      obtain ⟨u, hu⟩ := (c36_usable_partial hg r e).1
      refine ⟨fun _ => hl, u, fun _ => hu, .bind ((reads_usable hro hs h0).mono fun n tl' k => ?_)⟩
      exact ⟨k.1, rfl, by rw [if_neg (show b ≠ 0 from h0), k.2]⟩
  | objectSize x =>
    rcases hl with ⟨rfl, rfl⟩ | ⟨hl, u, hu, h1, h2⟩
    · exact ⟨fun e => absurd rfl e, 0, fun e => absurd rfl e, rfl, Or.inl ⟨rfl, rfl, rfl⟩⟩
    · have h0 := live_ne_zero hro I hl
      refine ⟨fun _ => hl, u, fun _ => hu, .bind ((reads_object hro hs h0 h1 h2).mono fun n tl' k => ?_)⟩
      exact ⟨k.1, Or.inr ⟨h0, h1, h2, n, rfl, k.2⟩⟩
  | _ => exact hc.elim

/-- A step of Conc.lean, other than a fork, does not disturb a query. -/
theorem Asking.other (hg : Good g ar) (r : CReach g ro ar calm h s) {h' : List CEv} {s' : CSys} (st : CStep ro ar calm h s h' s') {q : Nat → Option Ask}
    (hp : ∀ e, h' = e :: h → Permits q e) {v : Nat} {a : Ask} {tl0 tl : Tl} (hq : q v = some a) (k : Asking ro calm h s.σ a tl0 tl) :
    Asking ro calm h' s'.σ a tl0 tl := by
  obtain ⟨hro, _⟩ := r.roOk hg
  obtain ⟨w, n0, I⟩ := r.inv hg
  obtain ⟨k1, u, k2, k3⟩ := k
  suffices hs : a.blk ≠ 0 → ((hold h').live a.blk).isSome = true ∧ Usable ro s'.σ a.blk u from
    ⟨fun e => (hs e).1, u, fun e => (hs e).2, k3⟩
  intro h0
  have hl := k1 h0
  have hu := k2 h0
  cases st with
  | invoke t c b hi hok hl' =>
    have := (hp _ rfl).2 v a hq
    refine ⟨?_, hu⟩
    show Option.isSome (if a.blk = b then none else _) = true
    rw [if_neg (by rintro e; rcases this with h | h <;> simp_all)]
    exact hl
  | step t hc he hf => exact ⟨hl, (c36_untouched_partial hg r hc he hf hl hu).1⟩
  | ret t hc =>
    refine ⟨?_, hu⟩
    simp only [hold, Hold.step]
    split
    · split
      · rfl
      · exact hl
    · exact hl
  | store x v' hp' hu' h1 h2 =>
    obtain ⟨j1, _⟩ := I.store hro v' hp' hu' h1 h2
    exact ⟨hl, (j1.usable_iff hro hl).mpr ((I.usable_iff hro hl).mp hu)⟩
  | errno t e hi => exact ⟨hl, hu⟩
  | fork t hi => exact ⟨hl, hu⟩
  | other pg pr data hp' =>
    obtain ⟨j1, j2⟩ := I.other hro hp' pr data
    exact ⟨hl, (j1.usable_iff hro hl).mpr ((I.keep j2 (by simp) hl).usable ((I.usable_iff hro hl).mp hu))⟩

/-- The next action of a query. -/
theorem Asking.next (hg : Good g ar) (r : CReach g ro ar calm h s) {c : Call} {β : Type} {l : Option Sect} {f : Choice → St → Tl → Res (St × Tl × β)} {k : β → Prog Ret}
    {b : Nat} {tl0 tl : Tl} (a : Asking ro calm h s.σ ⟨c, .act (l := l) f k, b⟩ tl0 tl) {ch : Choice} (he : Env calm ch) :
    ∃ tl' x, f ch s.σ tl = .ok (s.σ, tl', x) ∧ tl'.errno = tl.errno ∧ Asking ro calm h s.σ ⟨c, k x, b⟩ tl0 tl' := by
  obtain ⟨hro, _⟩ := r.roOk hg
  obtain ⟨w, n0, I⟩ := r.inv hg
  obtain ⟨k1, u, k2, k3⟩ := a
  obtain ⟨tl', x, h1, h3, h2⟩ := k3 ch w he (I.appHas hro k1 k2)
  rw [I.σ] at h1
  exact ⟨tl', x, h1, h3, k1, u, k2, h2⟩

/-- Queries about blocks that the application keeps do not disturb the other calls: without them, the same steps lead to the
same shared state. And they will give the right answers. -/
theorem QReach.inv (hg : Good g ar) {q : Nat → Option Ask} (r : QReach g ro ar calm h s q) :
    ∃ tl0, CReach g ro ar calm h ⟨s.σ, tl0, s.run, s.start⟩ ∧ (∀ t, q t = none → s.tl t = tl0 t) ∧ (∀ t, s.run t ≠ none → q t = none) ∧
      ∀ t a, q t = some a → Asking ro calm h s.σ a (tl0 t) (s.tl t) := by
  induction r with
  | @init σ tl hi htl => exact ⟨tl, .init hi htl, fun _ _ => rfl, fun _ e => absurd rfl e, fun _ _ e => by cases e⟩
  | @base h h' s s' q r st hp hf ih =>
    obtain ⟨tl0, i1, i2, i3, i4⟩ := ih
    suffices hs : ∃ tl0', CStep ro ar calm h ⟨s.σ, tl0, s.run, s.start⟩ h' ⟨s'.σ, tl0', s'.run, s'.start⟩ ∧ (∀ t, q t = none → s'.tl t = tl0' t) ∧
        (∀ t, s'.run t ≠ none → q t = none) ∧ ∀ t a, q t = some a → tl0' t = tl0 t ∧ s'.tl t = s.tl t by
      obtain ⟨tl0', j1, j2, j3, j4⟩ := hs
      refine ⟨tl0', i1.next j1, j2, j3, fun t a e => ?_⟩
      rw [(j4 t a e).1, (j4 t a e).2]
      exact (i4 t a e).other hg i1 j1 hp e
    cases st with
    | invoke t c b hi hok hl =>
      refine ⟨tl0, .invoke t c b hi hok hl, i2, fun u hu => ?_, fun _ _ _ => ⟨rfl, rfl⟩⟩
      by_cases e : u = t
      · exact e ▸ (hp _ rfl).1
      · exact i3 u (by simpa [upd, e] using hu)
    | @step t c β l f k hc ch he σ' tl' b hf' =>
      have hq : q t = none := i3 t (by rw [hc]; simp)
      refine ⟨upd tl0 t tl', CStep.step (s := ⟨s.σ, tl0, s.run, s.start⟩) t hc he (by show f ch s.σ (tl0 t) = _; rw [← i2 t hq]; exact hf'), fun u hu => ?_, fun u hu => ?_, fun u a hu => ?_⟩
      · simp only [upd]
        by_cases e : u = t
        · rw [if_pos e, if_pos e]
        · rw [if_neg e, if_neg e]; exact i2 u hu
      · by_cases e : u = t
        · exact e ▸ hq
        · exact i3 u (by simpa [upd, e] using hu)
      · have e : u ≠ t := by rintro rfl; rw [hq] at hu; cases hu
        simp [upd, e]
    | @ret t c x hc =>
      refine ⟨tl0, .ret t hc, i2, fun u hu => ?_, fun _ _ _ => ⟨rfl, rfl⟩⟩
      by_cases e : u = t
      · subst e; exact absurd (if_pos rfl) hu
      · exact i3 u (by simpa [upd, e] using hu)
    | store x v hp' hu h1 h2 => exact ⟨tl0, .store x v hp' hu h1 h2, i2, i3, fun _ _ _ => ⟨rfl, rfl⟩⟩
    | errno t e hi =>
      have hq : q t = none := hp _ rfl
      refine ⟨upd tl0 t { tl0 t with errno := e }, .errno t e hi, fun u hu => ?_, i3, fun u a hu => ?_⟩
      · simp only [upd]
        by_cases e : u = t
        · rw [if_pos e, if_pos e, i2 t hq]
        · rw [if_neg e, if_neg e]; exact i2 u hu
      · have e : u ≠ t := by rintro rfl; rw [hq] at hu; cases hu
        simp [upd, e]
    | fork t hi => exact absurd rfl (hf t)
    | other pg pr data hp' => exact ⟨tl0, .other pg pr data hp', i2, i3, fun _ _ _ => ⟨rfl, rfl⟩⟩
  | @fork h h' s s' q r t st hf hi ih =>
    obtain ⟨tl0, i1, i2, i3, i4⟩ := ih
    cases st with
    | fork u hu =>
      cases hf
      refine ⟨_, i1.fork t hu, fun u _ => ?_, fun _ _ => rfl, fun _ _ e => by cases e⟩
      simp only [i2 t hi]
    | step t' hc he hf' =>
      have := congrArg List.length hf
      simp at this
    | _ => cases hf
  | @ask h s q r t c b hi hq hc hok hl ih =>
    obtain ⟨tl0, i1, i2, i3, i4⟩ := ih
    refine ⟨tl0, i1, fun u hu => ?_, fun u hu => ?_, fun u a hu => ?_⟩
    · by_cases e : u = t
      · subst e; simp [upd] at hu
      · exact i2 u (by simpa [upd, e] using hu)
    · have e : u ≠ t := by rintro rfl; exact hu hi
      simp only [upd, if_neg e]; exact i3 u hu
    · by_cases e : u = t
      · subst e
        simp only [upd, if_true, Option.some.injEq] at hu
        subst hu
        have := Asking.begin hg i1 hi hc hl
        rw [i2 u hq]; exact this
      · exact i4 u a (by simpa [upd, e] using hu)
  | @step h s q r t c blk β l f k hc ch he σ' tl' x hf ih =>
    obtain ⟨tl0, i1, i2, i3, i4⟩ := ih
    obtain ⟨tl1, y, j1, _, j2⟩ := (i4 t _ hc).next hg i1 he
    have j1 : f ch s.σ (s.tl t) = .ok (s.σ, tl1, y) := j1
    rw [hf] at j1
    cases j1
    refine ⟨tl0, i1, fun u hu => ?_, fun u hu => ?_, fun u a hu => ?_⟩
    · by_cases e : u = t
      · subst e; simp [upd] at hu
      · simp only [upd, if_neg e] at hu ⊢; exact i2 u hu
    · have e : u ≠ t := by rintro rfl; rw [i3 u hu] at hc; cases hc
      simp only [upd, if_neg e]; exact i3 u hu
    · by_cases e : u = t
      · subst e
        simp only [upd, if_true, Option.some.injEq] at hu
        subst hu
        simp only [upd, if_true]
        exact j2
      · simp only [upd, if_neg e] at hu ⊢; exact i4 u a hu
  | @answer h s q r t c x blk hc ih =>
    obtain ⟨tl0, i1, i2, i3, i4⟩ := ih
    obtain ⟨_, u, _, e1, _⟩ := i4 t _ hc
    refine ⟨tl0, i1, fun v hv => ?_, fun v hv => ?_, fun v a hv => ?_⟩
    · by_cases e : v = t
      · subst e; exact e1
      · simp only [upd, if_neg e] at hv; exact i2 v hv
    · simp only [upd]
      by_cases e : v = t
      · rw [if_pos e]
      · rw [if_neg e]; exact i3 v hv
    · by_cases e : v = t
      · subst e; simp [upd] at hv
      · simp only [upd, if_neg e] at hv; exact i4 v a hv

end HM
