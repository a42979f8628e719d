import Verif.Budget
import Verif.ConcInv
/-
Counting, while calls are interleaved: how often slots have been freed and regions have been quarantined, in terms of the
calls that were in progress and that have begun.
-/
namespace HM

variable {ro : Ro} {g : Cfg} {ar : Nat → Nat} {calm : Bool} {h h' h0 : List CEv} {s s' s0 : CSys} {n n' n0 : Nat → Nat} {w w' w0 : World}

/-- The calls in progress after the history `h` (latest event first), with the threads that make them. -/
def busy : List CEv → List (Nat × Call)
  | [] => []
  | .inv t c _ :: h => (t, c) :: busy h
  | .ret t _ _ :: h => (busy h).filter (fun x => x.1 != t)
  | .fork _ :: _ => []
  | _ :: h => busy h

/-- The calls in progress are those with something left to do. -/
theorem CReach.busy (r : CReach g ro ar calm h s) (t : Nat) (c : Call) : (t, c) ∈ busy h ↔ ∃ P, s.run t = some (c, P) := by
  have key : ∀ (f : Nat → Option (Call × Prog Ret)) (u : Nat) (v : Option (Call × Prog Ret)) (t : Nat) (c : Call),
      (∃ P, upd f u v t = some (c, P)) ↔ if t = u then ∃ P, v = some (c, P) else ∃ P, f t = some (c, P) := by
    intro f u v t c
    unfold upd
    by_cases e : t = u
    · simp only [if_pos e]
    · simp only [if_neg e]
  induction r generalizing t c with
  | init hi htl => simp [HM.busy]
  | invoke r u d b hi hok hl ih =>
    rw [key, HM.busy, List.mem_cons]
    by_cases e : t = u
    · subst e
      rw [if_pos rfl]
      constructor
      · rintro (e | e)
        · cases e; exact ⟨_, rfl⟩
        · obtain ⟨P, e⟩ := (ih t c).mp e
          rw [hi] at e; cases e
      · rintro ⟨P, e⟩
        cases e; exact .inl rfl
    · have k := ih t c
      rw [if_neg e, ← propext k]
      constructor
      · rintro (k | k)
        · cases k; exact absurd rfl e
        · exact k
      · exact .inr
  | step r u hc he hf ih =>
    rw [key, propext (ih t c)]
    by_cases e : t = u
    · subst e
      rw [if_pos rfl, hc]
      constructor
      · rintro ⟨P, e⟩; cases e; exact ⟨_, rfl⟩
      · rintro ⟨P, e⟩; cases e; exact ⟨_, rfl⟩
    · rw [if_neg e]
  | ret r u hc ih =>
    rw [key, HM.busy, List.mem_filter, propext (ih t c)]
    by_cases e : t = u
    · simp [e]
    · simp [e]
  | store r x v hp hu h1 h2 ih => exact ih t c
  | errno r t e hi ih => exact ih _ _
  | fork r u hi ih => simp [HM.busy]
  | other r pg pr data hp ih => exact ih t c

/-- A call in progress has no more to spend than it had when it began. -/
theorem CReach.within (hro : RoOk ro) {κ : Option Sect → Nat} (hκ : Prog.Within.Cheap κ) (r : CReach g ro ar calm h s) :
    ∀ t c P, s.run t = some (c, P) → P.Within κ (c.cost κ ro) := by
  have key : ∀ {f : Nat → Option (Call × Prog Ret)} {u : Nat} {v : Option (Call × Prog Ret)} {t : Nat} {c : Call} {P : Prog Ret},
      upd f u v t = some (c, P) → (v = some (c, P) ∧ t = u) ∨ f t = some (c, P) := by
    intro f u v t c P e
    unfold upd at e
    by_cases k : t = u
    · rw [if_pos k] at e; exact .inl ⟨e, k⟩
    · rw [if_neg k] at e; exact .inr e
  induction r with
  | init hi htl => intro t c P e; cases e
  | invoke r u d b hi hok hl ih =>
    intro t c P e
    rcases key e with ⟨e, _⟩ | e
    · cases e; exact Prog.Within.call hκ hro _ _
    · exact ih t c P e
  | step r u hc he hf ih =>
    intro t c P e
    rcases key e with ⟨e, _⟩ | e
    · cases e; exact ((ih u _ _ hc).2 _).mono (Nat.sub_le _ _)
    · exact ih t c P e
  | ret r u hc ih =>
    intro t c P e
    rcases key e with ⟨e, _⟩ | e
    · cases e
    · exact ih t c P e
  | store r x v hp hu h1 h2 ih => exact ih
  | errno r t e hi ih => exact ih
  | fork r u hi ih => intro t c P e; cases e
  | other r pg pr data hp ih => exact ih

/-! ### Executions with their worlds -/

/-- Steps with the worlds that go with the states. -/
inductive Path (ro : Ro) (ar : Nat → Nat) (calm : Bool) (h0 : List CEv) (s0 : CSys) (n0 : Nat → Nat) (w0 : World) : List CEv → CSys → (Nat → Nat) → World → Prop
  | refl : Path ro ar calm h0 s0 n0 w0 h0 s0 n0 w0
  | tail {h h' : List CEv} {s s' : CSys} {n n' : Nat → Nat} {w w' : World} (p : Path ro ar calm h0 s0 n0 w0 h s n w) (st : CStep ro ar calm h s h' s')
      (i : CInv ro calm n h s w) (i' : CInv ro calm n' h' s' w') (c : Change ro ar h s n w h' s' n' w') : Path ro ar calm h0 s0 n0 w0 h' s' n' w'

theorem CSteps.path (hg : Good g ar) (hro : RoOk ro) (eg : ro.g = g) (i : CInv ro calm n0 h0 s0 w0) (st : CSteps ro ar calm h0 s0 h s) :
    ∃ n w, CInv ro calm n h s w ∧ Path ro ar calm h0 s0 n0 w0 h s n w := by
  induction st with
  | refl => exact ⟨_, _, i, .refl⟩
  | tail st c ih =>
    obtain ⟨n, w, i1, p⟩ := ih
    obtain ⟨n', w', i2, ch⟩ := i1.step hg hro eg c
    exact ⟨n', w', i2, p.tail c i1 i2 ch⟩

theorem Path.trans {h1 h2 : List CEv} {s1 s2 : CSys} {n1 n2 : Nat → Nat} {w1 w2 : World} (p : Path ro ar calm h0 s0 n0 w0 h1 s1 n1 w1)
    (q : Path ro ar calm h1 s1 n1 w1 h2 s2 n2 w2) : Path ro ar calm h0 s0 n0 w0 h2 s2 n2 w2 := by
  induction q with
  | refl => exact p
  | tail q st i i' c ih => exact ih.tail st i i' c

theorem Path.steps (p : Path ro ar calm h0 s0 n0 w0 h s n w) : CSteps ro ar calm h0 s0 h s := by
  induction p with
  | refl => exact .refl
  | tail p st i i' c ih => exact ih.tail st

theorem CSteps.trans {h1 h2 : List CEv} {s1 s2 : CSys} (p : CSteps ro ar calm h0 s0 h1 s1) (q : CSteps ro ar calm h1 s1 h2 s2) : CSteps ro ar calm h0 s0 h2 s2 := by
  induction q with
  | refl => exact p
  | tail q c ih => exact ih.tail c

theorem CReach.steps (r : CReach g ro ar calm h0 s0) (st : CSteps ro ar calm h0 s0 h s) : CReach g ro ar calm h s := by
  induction st with
  | refl => exact r
  | tail q c ih => exact ih.next c

theorem CReach.start (r : CReach g ro ar calm h s) : ∃ s0, CReach g ro ar calm [] s0 ∧ CSteps ro ar calm [] s0 h s := by
  refine r.induction (M := fun h s => ∃ s0, CReach g ro ar calm [] s0 ∧ CSteps ro ar calm [] s0 h s) (fun hi htl => ⟨_, .init hi htl, .refl⟩) fun _ st ⟨s0, h1, h2⟩ => ⟨s0, h1, h2.tail st⟩

theorem CStep.hist (st : CStep ro ar calm h s h' s') : h' = h ∨ ∃ e, h' = e :: h := by
  cases st <;> first | exact .inl rfl | exact .inr ⟨_, rfl⟩

/-- The step at which an event happened. -/
theorem CSteps.split (st : CSteps ro ar calm h0 s0 h s) {evs h1 : List CEv} {e : CEv} (eh : h = evs ++ e :: h1) (hl : h0.length ≤ h1.length) :
    ∃ sa sb, CSteps ro ar calm h0 s0 h1 sa ∧ CStep ro ar calm h1 sa (e :: h1) sb ∧ CSteps ro ar calm (e :: h1) sb h s := by
  induction st generalizing evs with
  | refl => subst eh; simp at hl; omega
  | tail st c ih =>
    rcases c.hist with rfl | ⟨e', rfl⟩
    · obtain ⟨sa, sb, k1, k2, k3⟩ := ih eh
      exact ⟨sa, sb, k1, k2, k3.tail c⟩
    · cases evs with
      | nil =>
        simp only [List.nil_append, List.cons.injEq] at eh
        obtain ⟨rfl, rfl⟩ := eh
        exact ⟨_, _, st, c, .refl⟩
      | cons e2 evs =>
        simp only [List.cons_append, List.cons.injEq] at eh
        obtain ⟨rfl, rfl⟩ := eh
        obtain ⟨sa, sb, k1, k2, k3⟩ := ih rfl
        exact ⟨sa, sb, k1, k2, k3.tail c⟩

/-! ### Counting -/

/-- A counter that only actions with a cost increase. -/
structure Meter (ro : Ro) (κ : Option Sect → Nat) (ctr : World → Nat) : Prop extends Prog.Within.Cheap κ where
  act : ∀ {t l w w'}, Does ro t l w w' → ctr w' ≤ ctr w + κ l
  same : ∀ {w w' : World}, w'.G.frees = w.G.frees → w'.G.pushes = w.G.pushes → ctr w' = ctr w

/-- What the calls that began during the history may cost. -/
def begun (f : Call → Nat) : List CEv → Nat
  | [] => 0
  | .inv _ c _ :: h => f c + begun f h
  | _ :: h => begun f h

theorem sum_upd (r : Nat → Nat) {t k : Nat} (hk : k ≤ r t) : ∀ {L : List (Nat × Call)}, (∃ c, (t, c) ∈ L) →
    (L.map fun x => upd r t (r t - k) x.1).sum + k ≤ (L.map fun x => r x.1).sum := by
  have hle : ∀ L : List (Nat × Call), (L.map fun x => upd r t (r t - k) x.1).sum ≤ (L.map fun x => r x.1).sum := by
    intro L
    induction L with
    | nil => exact Nat.le_refl _
    | cons x L ih =>
      simp only [List.map_cons, List.sum_cons]
      have : upd r t (r t - k) x.1 ≤ r x.1 := by
        unfold upd
        split
        · rename_i e; rw [e]; omega
        · exact Nat.le_refl _
      omega
  intro L hL
  induction L with
  | nil => obtain ⟨c, h⟩ := hL; cases h
  | cons x L ih =>
    simp only [List.map_cons, List.sum_cons]
    by_cases e : x.1 = t
    · have := hle L
      have h2 : upd r t (r t - k) x.1 = r t - k := if_pos e
      rw [h2, e]; omega
    · have := ih (by
        obtain ⟨c, h⟩ := hL
        rcases List.mem_cons.mp h with rfl | h
        · exact absurd rfl e
        · exact ⟨c, h⟩)
      have h2 : upd r t (r t - k) x.1 = r x.1 := if_neg e
      omega

theorem sum_filter (f : Nat × Call → Nat) (q : Nat × Call → Bool) (L : List (Nat × Call)) : ((L.filter q).map f).sum ≤ (L.map f).sum := by
  induction L with
  | nil => exact Nat.le_refl _
  | cons x L ih =>
    rw [List.filter_cons]
    simp only [List.map_cons, List.sum_cons]
    split
    · simp only [List.map_cons, List.sum_cons]; omega
    · omega

/-- The counter is bounded by what the calls in progress and those that have begun may cost. -/
theorem Path.count (hro : RoOk ro) {κ : Option Sect → Nat} {ctr : World → Nat} (M : Meter ro κ ctr) (r0 : CReach g ro ar calm h0 s0)
    (p : Path ro ar calm h0 s0 n0 w0 h s n w) :
    ctr w + begun (Call.cost κ ro) h0 ≤ ctr w0 + ((busy h0).map fun x => x.2.cost κ ro).sum + begun (Call.cost κ ro) h := by
  suffices ∃ r : Nat → Nat, (∀ t c P, s.run t = some (c, P) → P.Within κ (r t)) ∧
      ctr w + ((busy h).map fun x => r x.1).sum + begun (Call.cost κ ro) h0 ≤ ctr w0 + ((busy h0).map fun x => x.2.cost κ ro).sum + begun (Call.cost κ ro) h by
    obtain ⟨r, _, h⟩ := this; omega
  induction p with
  | refl =>
    refine ⟨fun t => match s0.run t with | some (c, _) => c.cost κ ro | none => 0, fun t c P e => ?_, ?_⟩
    · simp only [e]; exact r0.within hro M.toCheap t c P e
    · have : ((busy h0).map fun x => (match s0.run x.1 with | some (c, _) => c.cost κ ro | none => 0 : Nat)) = (busy h0).map fun x => x.2.cost κ ro := by
        refine List.map_congr_left fun x hx => ?_
        obtain ⟨P, e⟩ := (r0.busy x.1 x.2).mp hx
        rw [e]
      rw [this]
  | @tail h h' s s' n n' w w' p st i i' c ih =>
    obtain ⟨r, hr, hs⟩ := ih
    have rr := r0.steps p.steps
    cases c with
    | @act t c β l f k b hc hd eh en er es =>
      subst eh
      have hw := hr t c _ hc
      refine ⟨upd r t (r t - κ l), fun u d P e => ?_, ?_⟩
      · rw [er] at e
        unfold upd at e ⊢
        by_cases k : u = t
        · rw [if_pos k] at e ⊢; cases e; exact hw.2 _
        · rw [if_neg k] at e ⊢; exact hr u d P e
      · have h1 := M.act hd
        have h2 := sum_upd r hw.1 ⟨c, (rr.busy t c).mpr ⟨_, hc⟩⟩
        omega
    | @inv t c b hi hl eh en er es ew =>
      subst eh
      have e1 : ctr w' = ctr w := by rcases ew with ⟨rfl, _⟩ | ⟨rfl, _⟩ <;> exact M.same rfl rfl
      refine ⟨upd r t (c.cost κ ro), fun u d P e => ?_, ?_⟩
      · rw [er] at e
        unfold upd at e ⊢
        by_cases k : u = t
        · rw [if_pos k] at e ⊢; cases e; exact Prog.Within.call M.toCheap hro _ _
        · rw [if_neg k] at e ⊢; exact hr u d P e
      · have e2 : ((busy h).map fun x => upd r t (c.cost κ ro) x.1) = (busy h).map fun x => r x.1 := by
          refine List.map_congr_left fun x hx => ?_
          obtain ⟨P, e⟩ := (rr.busy x.1 x.2).mp hx
          exact if_neg fun k => by rw [k, hi] at e; cases e
        have e3 : upd r t (c.cost κ ro) t = c.cost κ ro := if_pos rfl
        simp only [busy, begun, List.map_cons, List.sum_cons, e2, e3, e1]
        omega
    | @ret t c x hc eh en er es ew =>
      subst eh
      have e1 : ctr w' = ctr w := by rcases ew with rfl | ⟨_, _, _, rfl⟩ <;> exact M.same rfl rfl
      refine ⟨r, fun u d P e => ?_, ?_⟩
      · rw [er] at e
        unfold upd at e
        by_cases k : u = t
        · rw [if_pos k] at e; cases e
        · rw [if_neg k] at e; exact hr u d P e
      · have := sum_filter (fun x => r x.1) (fun x => x.1 != t) (busy h)
        simp only [busy, begun, e1]
        omega
    | @fork t hi eh en er es ew =>
      subst eh
      have e1 : ctr w' = ctr w := by rw [ew]; exact M.same rfl rfl
      refine ⟨r, fun u d P e => (by rw [er] at e; cases e), ?_⟩
      simp only [busy, begun, e1, List.map_nil, List.sum_nil]
      omega
    | @out e eh he en er es hd eb ef ep =>
      subst eh
      have e1 : ctr w' = ctr w := M.same ef ep
      refine ⟨r, fun u d P k => hr u d P (by rw [← er]; exact k), ?_⟩
      rcases he with ⟨_, _, rfl⟩ | ⟨_, _, rfl⟩ | ⟨_, _, rfl⟩ <;> (simp only [busy, begun, e1]; omega)

theorem meter_frees (a c : Nat) : Meter ro (freesIn ro · a c) (fun w => w.G.frees a c) :=
  ⟨⟨rfl, fun _ _ => rfl, fun _ => rfl⟩, fun d => d.counted a c, fun e _ => by rw [e]⟩

theorem meter_pushes : Meter ro quarIn (fun w => w.G.pushes) := ⟨⟨rfl, fun _ _ => rfl, fun _ => rfl⟩, fun d => d.queued, fun _ e => e⟩

end HM
