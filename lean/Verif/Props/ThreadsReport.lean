import Verif.Props.ThreadsLeak
/-
C71. What `mallinfo` reports while other threads allocate and free. The function reads one counter after the other, and between two
of them other threads may allocate and free, so that its result need not be right for any single moment. But it is the sum of
numbers each of which is right at some moment between the beginning and the end of the call.
-/
namespace HM

variable {g : Cfg} {ro : Ro} {ar : Nat → Nat} {calm : Bool} {h : List CEv} {s : CSys} {t : Nat}

/-! ### Calls that only read -/

/-- Whatever happens in between, the rest `P` of a call changes nothing but the thread-local state and does not fail. -/
def Prog.ReadsOnly {α : Type} : Prog α → Tl → Prop
  | .ret _, _ => True
  | .act f k, tl => ∀ ch σ, ∃ tl' b, f ch σ tl = .ok (σ, tl', b) ∧ (k b).ReadsOnly tl'

/-- `P` can end with `x` if each of its actions finds a state in `M`. -/
inductive Prog.Fed {α : Type} (M : St → Prop) : Prog α → α → Prop where
  | ret (x : α) : Prog.Fed M (.ret x) x
  | act {β : Type} {l : Option Sect} {f : Choice → St → Tl → Res (St × Tl × β)} {k : β → Prog α} {ch : Choice} {σ σ' : St} {tl tl' : Tl} {b : β} {x : α}
      (hM : M σ) (hf : f ch σ tl = .ok (σ', tl', b)) (hk : Prog.Fed M (k b) x) : Prog.Fed M (.act (l := l) f k) x

theorem Prog.Fed.bind {α β : Type} {M : St → Prop} {P : Prog α} {k : α → Prog β} {x : β} (e : (P >>= k).Fed M x) : ∃ y, P.Fed M y ∧ (k y).Fed M x := by
  induction P with
  | ret a => exact ⟨a, .ret a, e⟩
  | act f j ih =>
    cases e with
    | act hM hf hk =>
      obtain ⟨y, h1, h2⟩ := ih _ hk
      exact ⟨y, .act hM hf h1, h2⟩

theorem Prog.Fed.value {α : Type} {M : St → Prop} {a x : α} (e : (pure a : Prog α).Fed M x) : x = a := by
  cases e; rfl

theorem readClassStats_fed {M : St → Prop} {a c : Nat} {y : Nat × Nat} (e : (readClassStats ro a c).Fed M y) : ∃ σ, M σ ∧ y = ((σ.sc a c).slabAllocated, (σ.sc a c).allocated) := by
  unfold readClassStats critical at e
  cases e with
  | act hM hf hk =>
    cases hk
    refine ⟨_, hM, ?_⟩
    simp only at hf
    split at hf
    · cases hf
    · cases hf; rfl

theorem readLargeStats_fed {M : St → Prop} {y : Nat} (e : (readLargeStats ro).Fed M y) : ∃ σ, M σ ∧ y = σ.largeAllocated := by
  unfold readLargeStats critical at e
  cases e with
  | act hM hf hk =>
    cases hk
    refine ⟨_, hM, ?_⟩
    simp only at hf
    split at hf
    · cases hf
    · cases hf; rfl

theorem sumClasses_fed {M : St → Prop} {a : Nat} : ∀ {n c : Nat} {v y : Nat × Nat}, (sumClasses ro a n c v).Fed M y →
    ∃ X : Nat → St, (∀ i, i < n → M (X i)) ∧ y.1 % W64 = (v.1 + ∑ i ∈ Finset.range n, ((X i).sc a (c + i)).slabAllocated) % W64 ∧
      y.2 % W64 = (v.2 + ∑ i ∈ Finset.range n, ((X i).sc a (c + i)).allocated) % W64 ∧ (v.1 < W64 ∧ v.2 < W64 → y.1 < W64 ∧ y.2 < W64)
  | 0, c, v, y, e => by
    have := e.value
    subst this
    exact ⟨fun _ => St.zero, fun i hi => absurd hi (by omega), by simp, by simp, id⟩
  | n + 1, c, v, y, e => by
    obtain ⟨q, h1, h2⟩ := Prog.Fed.bind e
    obtain ⟨σ, hσ, rfl⟩ := readClassStats_fed h1
    obtain ⟨X, k1, k0, k2, k3⟩ := sumClasses_fed h2
    refine ⟨fun i => match i with | 0 => σ | i + 1 => X i, fun i hi => ?_, ?_, ?_, fun _ => k3 ⟨Nat.mod_lt _ (by decide), Nat.mod_lt _ (by decide)⟩⟩
    · cases i with
      | zero => exact hσ
      | succ i => exact k1 i (by omega)
    · rw [k0, Finset.sum_range_succ']
      simp only [add64, Nat.add_zero]
      have e : ∑ i ∈ Finset.range n, ((X i).sc a (c + (i + 1))).slabAllocated = ∑ i ∈ Finset.range n, ((X i).sc a (c + 1 + i)).slabAllocated :=
        Finset.sum_congr rfl fun i _ => by rw [show c + (i + 1) = c + 1 + i by omega]
      rw [e]
      omega
    · rw [k2, Finset.sum_range_succ']
      simp only [add64, Nat.add_zero]
      have e : ∑ i ∈ Finset.range n, ((X i).sc a (c + (i + 1))).allocated = ∑ i ∈ Finset.range n, ((X i).sc a (c + 1 + i)).allocated :=
        Finset.sum_congr rfl fun i _ => by rw [show c + (i + 1) = c + 1 + i by omega]
      rw [e]
      omega

theorem sumArenas_fed {M : St → Prop} : ∀ {n a : Nat} {v y : Nat × Nat}, (sumArenas ro n a v).Fed M y →
    ∃ X : Nat → Nat → St, (∀ i c, i < n → c < nClasses ro.g → M (X i c)) ∧
      y.1 % W64 = (v.1 + ∑ i ∈ Finset.range n, ∑ c ∈ Finset.range (nClasses ro.g), ((X i c).sc (a + i) c).slabAllocated) % W64 ∧
      y.2 % W64 = (v.2 + ∑ i ∈ Finset.range n, ∑ c ∈ Finset.range (nClasses ro.g), ((X i c).sc (a + i) c).allocated) % W64 ∧ (v.1 < W64 ∧ v.2 < W64 → y.1 < W64 ∧ y.2 < W64)
  | 0, a, v, y, e => by
    have := e.value
    subst this
    exact ⟨fun _ _ => St.zero, fun i _ hi => absurd hi (by omega), by simp, by simp, id⟩
  | n + 1, a, v, y, e => by
    obtain ⟨q, h1, h2⟩ := Prog.Fed.bind e
    obtain ⟨X, k1, k0, k2, k3⟩ := sumClasses_fed h1
    obtain ⟨Y, j1, j0, j2, j3⟩ := sumArenas_fed h2
    refine ⟨fun i => match i with | 0 => X | i + 1 => Y i, fun i c hi hc => ?_, ?_, ?_, fun hv => j3 (k3 hv)⟩
    · cases i with
      | zero => exact k1 c hc
      | succ i => exact j1 i c (by omega) hc
    · rw [j0, Finset.sum_range_succ']
      have e : ∑ i ∈ Finset.range n, ∑ c ∈ Finset.range (nClasses ro.g), ((Y i c).sc (a + (i + 1)) c).slabAllocated =
          ∑ i ∈ Finset.range n, ∑ c ∈ Finset.range (nClasses ro.g), ((Y i c).sc (a + 1 + i) c).slabAllocated :=
        Finset.sum_congr rfl fun i _ => by rw [show a + (i + 1) = a + 1 + i by omega]
      simp only [Nat.zero_add] at k0
      simp only [Nat.add_zero]
      rw [e]
      omega
    · rw [j2, Finset.sum_range_succ']
      have e : ∑ i ∈ Finset.range n, ∑ c ∈ Finset.range (nClasses ro.g), ((Y i c).sc (a + (i + 1)) c).allocated =
          ∑ i ∈ Finset.range n, ∑ c ∈ Finset.range (nClasses ro.g), ((Y i c).sc (a + 1 + i) c).allocated :=
        Finset.sum_congr rfl fun i _ => by rw [show a + (i + 1) = a + 1 + i by omega]
      simp only [Nat.zero_add] at k2
      simp only [Nat.add_zero]
      rw [e]
      omega

/-- What `mallinfo` returns, in terms of the states that its actions find. -/
theorem mallinfo_fed {M : St → Prop} {a : Nat} {x : Ret} (hst : ro.g.stats = true) (hlt : ∀ σ, M σ → σ.largeAllocated < W64) (e : (Call.prog ro a .mallinfo).Fed M x) :
    ∃ (m : MallInfo) (Y : St) (X : Nat → Nat → St), x = .info m ∧ M Y ∧ (∀ i c, i < ro.g.nArena → c < nClasses ro.g → M (X i c)) ∧
      m.uordblks = (Y.largeAllocated + ∑ i ∈ Finset.range ro.g.nArena, ∑ c ∈ Finset.range (nClasses ro.g), ((X i c).sc i c).allocated) % W64 ∧
      m.hblkhd = (Y.largeAllocated + ∑ i ∈ Finset.range ro.g.nArena, ∑ c ∈ Finset.range (nClasses ro.g), ((X i c).sc i c).slabAllocated) % W64 ∧
      (m.fordblks + m.uordblks) % W64 = m.hblkhd ∧ m.usmblks = m.hblkhd := by
  obtain ⟨m, h1, h2⟩ := Prog.Fed.bind e
  have h2 := h2.value
  subst h2
  unfold hMallinfo at h1
  rw [if_pos hst] at h1
  obtain ⟨_, _, h1⟩ := Prog.Fed.bind h1
  obtain ⟨v, h2, h1⟩ := Prog.Fed.bind h1
  obtain ⟨Y, hY, rfl⟩ := readLargeStats_fed h2
  obtain ⟨q, h3, h1⟩ := Prog.Fed.bind h1
  obtain ⟨X, k1, k0, k2, k3⟩ := sumArenas_fed h3
  obtain ⟨_, _, h1⟩ := Prog.Fed.bind h1
  have h1 := h1.value
  subst h1
  obtain ⟨l1, l2⟩ := k3 ⟨hlt Y hY, hlt Y hY⟩
  simp only [Nat.zero_add] at k0 k2
  refine ⟨_, Y, X, rfl, hY, k1, ?_, ?_, ?_, rfl⟩
  · rw [← k2]
    exact (Nat.mod_eq_of_lt l2).symm
  · rw [← k0]
    exact (Nat.mod_eq_of_lt l1).symm
  · show (sub64 q.1 q.2 + q.2) % W64 = q.1
    unfold sub64
    omega

/-! `mallinfo` only reads. -/

/-- A program that only reads if metadata is accessible, and leaves it accessible. -/
def Prog.Reads {α : Type} : Prog α → Prop
  | .ret _ => True
  | .act f k => ∀ ch σ tl, tl.unsealed = true → ∃ tl' b, f ch σ tl = .ok (σ, tl', b) ∧ tl'.unsealed = true ∧ (k b).Reads

theorem Prog.Reads.bind {α β : Type} {P : Prog α} {k : α → Prog β} (h : P.Reads) (hk : ∀ a, (k a).Reads) : (P >>= k).Reads := by
  induction P with
  | ret a => exact hk a
  | act f j ih =>
    intro ch σ tl ht
    obtain ⟨tl', b, h1, h2, h3⟩ := h ch σ tl ht
    exact ⟨tl', b, h1, h2, ih _ h3⟩

theorem Prog.Reads.only {α β : Type} {P : Prog α} {k : α → Prog β} (h : P.Reads) (hk : ∀ a tl, tl.unsealed = true → (k a).ReadsOnly tl) {tl : Tl} (ht : tl.unsealed = true) :
    (P >>= k).ReadsOnly tl := by
  induction P generalizing tl with
  | ret a => exact hk a tl ht
  | act f j ih =>
    intro ch σ
    obtain ⟨tl', b, h1, h2, h3⟩ := h ch σ tl ht
    exact ⟨tl', b, h1, ih _ h3 h2⟩

theorem critical_reads {β : Type} {x : Sect} {f : St → β} : (critical ro x fun _ σ e => .ok (σ, e, f σ)).Reads := by
  intro ch σ tl ht
  refine ⟨tl, f σ, ?_, ht, trivial⟩
  simp only [ht, Bool.not_true, Bool.and_false, Bool.false_eq_true, if_false]
  cases tl; cases ht; rfl

theorem sumClasses_reads (a : Nat) : ∀ (n c : Nat) (v : Nat × Nat), (sumClasses ro a n c v).Reads
  | 0, _, _ => trivial
  | n + 1, c, _ => Prog.Reads.bind critical_reads fun _ => sumClasses_reads a n (c + 1) _

theorem sumArenas_reads : ∀ (n a : Nat) (v : Nat × Nat), (sumArenas ro n a v).Reads
  | 0, _, _ => trivial
  | n + 1, a, _ => Prog.Reads.bind (sumClasses_reads a _ _ _) fun _ => sumArenas_reads n (a + 1) _

theorem Prog.bind_assoc' {α β γ : Type} (P : Prog α) (k : α → Prog β) (j : β → Prog γ) : (P >>= k) >>= j = P >>= fun a => k a >>= j := by
  induction P with
  | ret a => rfl
  | act f k' ih =>
    show Prog.act f _ = Prog.act f _
    exact congrArg _ (funext ih)

theorem mallinfo_readsOnly (a : Nat) (tl : Tl) : (Call.prog ro a .mallinfo).ReadsOnly tl := by
  show (hMallinfo ro >>= fun m => .ret (Ret.info m)).ReadsOnly tl
  unfold hMallinfo
  split
  · intro ch σ
    refine ⟨_, _, rfl, ?_⟩
    show ((readLargeStats ro >>= _) >>= _).ReadsOnly _
    rw [Prog.bind_assoc']
    refine Prog.Reads.only critical_reads (fun v tl1 h1 => ?_) rfl
    rw [Prog.bind_assoc']
    refine Prog.Reads.only (sumArenas_reads _ _ _) (fun w tl2 h2 => ?_) h1
    intro ch σ
    exact ⟨_, _, rfl, trivial⟩
  · trivial

/-! ### A call that only reads, followed through an execution -/

/-- The states of the execution from `s0` to `s`. -/
def Between (ro : Ro) (ar : Nat → Nat) (calm : Bool) (h0 : List CEv) (s0 : CSys) (h : List CEv) (s : CSys) (h' : List CEv) (s' : CSys) : Prop :=
  CSteps ro ar calm h0 s0 h' s' ∧ CSteps ro ar calm h' s' h s

/-- Where a call in progress began, and that its result is determined by states that it met since. -/
theorem CReach.follow (r : CReach g ro ar calm h s) {c : Call} (hR : ∀ tl, (c.prog ro (ar t)).ReadsOnly tl) : ∀ Q, s.run t = some (c, Q) →
    Q.ReadsOnly (s.tl t) ∧ ∃ hp l b s0, h = l ++ .inv t c b :: hp ∧ (∀ c' x b', .ret t c' x ∉ l ∧ .inv t c' b' ∉ l) ∧ CReach g ro ar calm (.inv t c b :: hp) s0 ∧
      Lends ro (hold hp) s0.σ b c ∧ CSteps ro ar calm (.inv t c b :: hp) s0 h s ∧
      ∀ M : St → Prop, (∀ h' s', Between ro ar calm (.inv t c b :: hp) s0 h s h' s' → M s'.σ) → ∀ x, Q.Fed M x → (c.prog ro (ar t)).Fed M x := by
  refine r.induction (M := fun h s => ∀ Q, s.run t = some (c, Q) →
    Q.ReadsOnly (s.tl t) ∧ ∃ hp l b s0, h = l ++ .inv t c b :: hp ∧ (∀ c' x b', .ret t c' x ∉ l ∧ .inv t c' b' ∉ l) ∧ CReach g ro ar calm (.inv t c b :: hp) s0 ∧
      Lends ro (hold hp) s0.σ b c ∧ CSteps ro ar calm (.inv t c b :: hp) s0 h s ∧
      ∀ M : St → Prop, (∀ h' s', Between ro ar calm (.inv t c b :: hp) s0 h s h' s' → M s'.σ) → ∀ x, Q.Fed M x → (c.prog ro (ar t)).Fed M x)
    (fun _ _ Q e => by cases e) ?_
  intro h s h' s' r st ih Q hQ
  -- a step that leaves the call alone
  have other : ∀ e : List CEv, h' = e ++ h → (∀ c' x b', .ret t c' x ∉ e ∧ .inv t c' b' ∉ e) → s'.run t = s.run t → s'.tl t = s.tl t →
      Q.ReadsOnly (s'.tl t) ∧ ∃ hp l b s0, h' = l ++ .inv t c b :: hp ∧ (∀ c' x b', .ret t c' x ∉ l ∧ .inv t c' b' ∉ l) ∧ CReach g ro ar calm (.inv t c b :: hp) s0 ∧
      Lends ro (hold hp) s0.σ b c ∧ CSteps ro ar calm (.inv t c b :: hp) s0 h' s' ∧
      ∀ M : St → Prop, (∀ h1 s1, Between ro ar calm (.inv t c b :: hp) s0 h' s' h1 s1 → M s1.σ) → ∀ x, Q.Fed M x → (c.prog ro (ar t)).Fed M x := by
    intro e he hne e1 e2
    obtain ⟨k0, hp, l, b, s0, k1, k2, k3, k4, k5, k6⟩ := ih Q (e1 ▸ hQ)
    refine ⟨by rw [e2]; exact k0, hp, e ++ l, b, s0, by rw [he, k1, List.append_assoc], fun c' x b' => ?_, k3, k4, k5.tail st,
      fun M hM => k6 M fun h1 s1 hb => hM h1 s1 ⟨hb.1, hb.2.tail st⟩⟩
    simp only [List.mem_append, not_or]
    exact ⟨⟨(hne c' x b').1, (k2 c' x b').1⟩, (hne c' x b').2, (k2 c' x b').2⟩
  cases st with
  | invoke u c' b hi hok hl =>
    by_cases e : t = u
    · subst e
      have : some (c', c'.prog ro (ar t)) = some (c, Q) := by rw [← hQ]; exact (if_pos rfl).symm
      simp only [Option.some.injEq, Prod.mk.injEq] at this
      obtain ⟨rfl, rfl⟩ := this
      exact ⟨hR _, h, [], b, _, rfl, by simp, r.next (.invoke t c' b hi hok hl), hl, .refl, fun M _ x hx => hx⟩
    · refine other [.inv u c' b] rfl ?_ (if_neg e) rfl
      simp only [List.mem_singleton, reduceCtorEq, not_false_eq_true, CEv.inv.injEq, true_and]
      exact fun _ _ _ hh => e hh.1
  | step u hc he hf =>
    rename_i c' β lk f k ch σ' tl' b
    by_cases e : t = u
    · subst e
      have : some (c', k b) = some (c, Q) := by rw [← hQ]; exact (if_pos rfl).symm
      simp only [Option.some.injEq, Prod.mk.injEq] at this
      obtain ⟨rfl, rfl⟩ := this
      obtain ⟨k0, hp, l, b0, s0, k1, k2, k3, k4, k5, k6⟩ := ih _ hc
      refine ⟨?_, hp, l, b0, s0, k1, k2, k3, k4, k5.tail (.step t hc he hf), fun M hM x hx => ?_⟩
      · obtain ⟨tl1, b1, q1, q2⟩ := k0 ch s.σ
        rw [hf] at q1
        simp only [Res.ok.injEq, Prod.mk.injEq] at q1
        obtain ⟨rfl, rfl, rfl⟩ := q1
        show (k b).ReadsOnly (if t = t then tl' else _)
        rw [if_pos rfl]; exact q2
      · exact k6 M (fun h1 s1 hb => hM h1 s1 ⟨hb.1, hb.2.tail (.step t hc he hf)⟩) x (.act (hM h s ⟨k5, CSteps.refl.tail (.step t hc he hf)⟩) hf hx)
    · exact other [] rfl (by simp) (if_neg e) (if_neg e)
  | ret u hc =>
    rename_i c' x
    by_cases e : t = u
    · subst e
      exact absurd ((show upd s.run t none t = none from if_pos rfl).symm.trans hQ) (by simp)
    · refine other [.ret u c' x] rfl ?_ (if_neg e) rfl
      simp only [List.mem_singleton, reduceCtorEq, not_false_eq_true, CEv.ret.injEq, and_true]
      exact fun _ _ _ hh => e hh.1
  | store x v hp hu h1 h2 => exact other [.store x v] rfl (by simp) rfl rfl
  | errno u e hi =>
    by_cases e' : t = u
    · subst e'
      exact absurd (hi.symm.trans hQ) (by simp)
    · exact other [.errno u e] rfl (by simp) rfl (if_neg e')
  | fork u hi => cases hQ
  | other pg pr data hp => exact other [.foreign pg _] rfl (by simp) rfl rfl

/-! ### What the counters say at one moment -/

/-- A call that only reads can be completed at once. -/
theorem CReach.complete {c : Call} : ∀ (Q : Prog Ret) {s : CSys}, CReach g ro ar calm h s → s.run t = some (c, Q) → Q.ReadsOnly (s.tl t) →
    ∃ x s', CReach g ro ar calm (.ret t c x :: h) s' ∧ s'.σ = s.σ := by
  intro Q
  induction Q with
  | ret x => exact fun r hc _ => ⟨x, _, r.ret t hc, rfl⟩
  | act f k ih =>
    intro s r hc hR
    obtain ⟨tl', b, hf, hk⟩ := hR (exAt 0) s.σ
    obtain ⟨x, s', k1, k2⟩ := ih b (r.step t hc (exAt_cenv calm 0 c) hf) (if_pos rfl) (by
      show (k b).ReadsOnly (if t = t then tl' else _)
      rw [if_pos rfl]; exact hk)
    exact ⟨x, s', k1, k2⟩

/-- For the state, calls of `mallinfo` that are in progress make no difference. -/
theorem CReach.without : ∀ (n : Nat) {h : List CEv} {s : CSys}, CReach g ro ar calm h s → quietForks h → (HM.busy h).length ≤ n →
    ∃ h' s', CReach g ro ar calm h' s' ∧ quietForks h' ∧ (allPlain h → allPlain h') ∧ s'.σ = s.σ ∧ (∀ p, (hold h').live p = (hold h).live p) ∧
      ∀ x ∈ HM.busy h', x ∈ HM.busy h ∧ x.2 ≠ .mallinfo := by
  intro n
  induction n with
  | zero =>
    intro h s r hq hn
    refine ⟨h, s, r, hq, id, rfl, fun _ => rfl, fun x hx => ?_⟩
    rw [List.length_eq_zero_iff.mp (Nat.le_zero.mp hn)] at hx; cases hx
  | succ n ih =>
    intro h s r hq hn
    by_cases e : ∃ u, (u, Call.mallinfo) ∈ HM.busy h
    · obtain ⟨u, hu⟩ := e
      obtain ⟨P, hP⟩ := (r.busy u .mallinfo).mp hu
      obtain ⟨x, s1, r1, e1⟩ := r.complete P hP (r.follow (t := u) (mallinfo_readsOnly _) P hP).1
      have hlt : (HM.busy (.ret u .mallinfo x :: h)).length ≤ n := by
        have : ((HM.busy h).filter fun y => y.1 != u).length < (HM.busy h).length := by
          rw [List.length_filter_lt_length_iff_exists]
          exact ⟨_, hu, by simp⟩
        show ((HM.busy h).filter fun y => y.1 != u).length ≤ n
        omega
      obtain ⟨h', s', k1, k2, k3, k4, k5, k6⟩ := ih r1 hq hlt
      refine ⟨h', s', k1, k2, fun hp => k3 fun t' c b hm => hp t' c b ?_, k4.trans e1, fun p => (k5 p).trans ?_, fun y hy => ?_⟩
      · simpa using hm
      · rfl
      · obtain ⟨q1, q2⟩ := k6 y hy
        exact ⟨(List.mem_filter.mp q1).1, q2⟩
    · exact ⟨h, s, r, hq, id, rfl, fun _ => rfl, fun x hx => ⟨hx, fun e' => e ⟨x.1, by rw [← e']; exact hx⟩⟩⟩

/-- Another call than `mallinfo` is in progress. -/
def Working (h : List CEv) : Prop := ∃ u c, (u, c) ∈ busy h ∧ c ≠ .mallinfo

/-- Every block that is not free belongs to the application, unless a call is in progress. -/
theorem CReach.owned (hg : Good g ar) (r : CReach g ro ar calm h s) (hq : quietForks h) : ∃ n0 w h' s', CReach g ro ar calm h' s' ∧ CInv ro calm n0 h' s' w ∧ s'.σ = s.σ ∧
    (∀ p, (hold h').live p = (hold h).live p) ∧ (∀ p, w.G.blk p ≠ .nobody → ((hold h).live p).isSome ∨ Working h) ∧ (allPlain h → w.G.untracked = 0) := by
  obtain ⟨h', s', r', q', p', e, el, eb⟩ := CReach.without _ r hq le_rfl
  obtain ⟨σ0, tl, hi, htl, st⟩ := r'.init_steps
  obtain ⟨n0, w, A, i, a⟩ := st.acc hg hi htl q'
  refine ⟨n0, w, h', s', r', i, e, el, fun p hp => ?_, fun hp => a.plain (p' hp)⟩
  cases hb : w.G.blk p with
  | nobody => exact absurd hb hp
  | app => exact Or.inl (by rw [← el]; exact (i.app p).mp hb)
  | thr u =>
    cases u with
    | zero => exact absurd hb (a.zero p)
    | succ u =>
      cases hr : s'.run u with
      | none => exact absurd ((a.ok u).B p hb) ((a.idle u hr).B p)
      | some x =>
        obtain ⟨k1, k2⟩ := eb (u, x.1) ((r'.busy u x.1).mpr ⟨x.2, hr⟩)
        exact Or.inr ⟨u, x.1, k1, k2⟩

/-- At the moment `h`, `s`: the blocks `S` of size class `c` of arena `a` are all those that the application has, and no others unless another call is in progress;
`N` are the numbers of the slabs that contain them. In all classes but that for zero byte blocks, these are the accessible slabs. -/
structure ClassAt (ro : Ro) (a c : Nat) (h : List CEv) (s : CSys) (S N : Finset Nat) : Prop where
  all : ∀ p, ((hold h).live p).isSome → ro.area a c p → p ∈ S
  only : ∀ p ∈ S, ro.area a c p ∧ (((hold h).live p).isSome ∨ Working h)
  slab : ∀ p ∈ S, ro.slabNo a c p ∈ N
  access : 0 < c → ∀ x, ro.area a c x → (s.access x ↔ ro.slabNo a c x ∈ N)

/-- At the moment `h`, `s`: the large blocks `B` are all those that the application has, and no others unless another call is in progress. -/
structure LargeAt (ro : Ro) (h : List CEv) (s : CSys) (B : Finset Nat) (size : Nat → Nat) : Prop where
  all : ∀ p, ((hold h).live p).isSome → ¬ (ro.slabStart ≤ p ∧ p < ro.slabEnd) → p ∈ B ∧ Usable ro s.σ p (size p)
  only : ∀ p ∈ B, ¬ (ro.slabStart ≤ p ∧ p < ro.slabEnd) ∧ (((hold h).live p).isSome ∨ Working h)

/-- As `access_loc`, with calls in progress. -/
theorem access_loc_inv (hro : RoOk ro) {w : World} (hi : GInv ro w) {a c x : Nat} (ha : a < ro.g.nArena) (hc : c < nClasses ro.g)
    (hx : ro.area a c x) (hp : w.σ.vm.prot (x / PAGE) = .rw) :
    ro.slabNo a c x < ro.g.metaMax c ∧ (w.G.loc a c (ro.slabNo a c x)).isRw = true ∧ 0 < c ∧
      inRange (slabAddr (ro.regionStart a c) (ro.g.slabSize c) (ro.slabNo a c x)) (ro.g.slabSize c) x := by
  have geo := classGeo ro.g hc
  have hx' := hx
  unfold Ro.area at hx'
  have hin : inRange (slabAddr (ro.regionStart a c) (ro.g.slabSize c) (ro.slabNo a c x)) (ro.g.slabSize c) x := by
    unfold inRange slabAddr Ro.slabNo
    have h1 := Nat.div_add_mod (x - ro.regionStart a c) (ro.g.slabSize c)
    have h2 := Nat.mod_lt (x - ro.regionStart a c) (y := ro.g.slabSize c) (by have := geo.slab_ge; omega)
    rw [Nat.mul_comm] at h1
    omega
  generalize hj : ro.slabNo a c x = i at hin
  by_cases k : i < ro.g.metaMax c
  · have hrw : (w.G.loc a c i).isRw = true := by
      by_contra hn
      have := ((hi.clsVm a c ha hc).off i x k (fun hh => hn hh.1) hin).1
      rw [hp] at this; cases this
    have h0 : 0 < c := by
      refine Nat.pos_of_ne_zero fun h0 => ?_
      have := ((hi.clsVm a c ha hc).off i x k (fun hh => hh.2 (geo.zero_iff.mp h0)) hin).1
      rw [hp] at this; cases this
    exact ⟨k, hrw, h0, hin⟩
  · exfalso
    have := gap_guarded hro hi (x := x) (hro.cell_slab ha hc (hro.region_cell ha hc hx)) fun a' c' ha' hc' hm' => by
      obtain ⟨rfl, rfl⟩ := hro.cell_inj ha hc ha' hc' (hro.region_cell ha hc hx) (hro.region_cell ha' hc' (classMem_region hc' hm'))
      have : ro.g.metaMax c * ro.g.slabSize c ≤ i * ro.g.slabSize c := Nat.mul_le_mul_right _ (by omega)
      unfold ClassMem inRange at hm'
      unfold inRange slabAddr at hin
      omega
    rw [hp] at this; cases this

/-- The bytes counted for a class. -/
theorem CReach.class_bytes (hg : Good g ar) (r : CReach g ro ar calm h s) (hq : quietForks h) (hst : ro.g.stats = true) {a c : Nat} (ha : a < ro.g.nArena) (hc : c < nClasses ro.g) :
    ∃ S N : Finset Nat, (s.σ.sc a c).allocated = ro.g.slotSize c * S.card % W64 ∧ (s.σ.sc a c).slabAllocated = ro.g.slabSize c * N.card % W64 ∧
      ClassAt ro a c h s S N := by
  obtain ⟨hro, -⟩ := r.roOk hg
  obtain ⟨n0, w, h', s', r', i, e, el, ho, -⟩ := r.owned hg hq
  refine ⟨((Finset.range (ro.g.metaMax c) ×ˢ Finset.range (ro.g.slots c)).filter fun ik => (w.σ.sc a c).live ik.1 ik.2 = true).image
    fun ik => slotAddr ro.g (ro.regionStart a c) c ik.1 ik.2, (Finset.range (ro.g.metaMax c)).filter fun i => (w.G.loc a c i).isRw = true, ?_, ?_,
    fun p hp hA => ?_, fun p hp => ?_, fun p hp => ?_, fun h0 x hx => ?_⟩
  · rw [← e, ← i.σ, (i.stat.small hst a c ha hc).1.1, Finset.card_image_of_injOn]
    · rfl
    · rintro ⟨j, k⟩ h1 ⟨j', k'⟩ h2 e
      rw [Finset.mem_coe, Finset.mem_filter, Finset.mem_product, Finset.mem_range, Finset.mem_range] at h1 h2
      obtain ⟨rfl, rfl⟩ := slotAddr_inj hc h1.1.2 h2.1.2 e
      rfl
  · rw [← e, ← i.σ, (i.stat.small hst a c ha hc).1.2]
    rfl
  · have hb : w.G.blk p ≠ .nobody := by rw [(i.app p).mpr (by rw [el]; exact hp)]; simp
    rcases (i.inv.blk p).mp hb with ⟨a', c', j, k, hs⟩ | ⟨z, gd, hz⟩
    · obtain ⟨rfl, rfl⟩ := hro.cell_inj ha hc hs.1 hs.2.1 (hro.region_cell ha hc hA) (hro.region_cell hs.1 hs.2.1 (hs.area i.inv))
      have := hs.lt i.inv
      exact Finset.mem_image.mpr ⟨(j, k), Finset.mem_filter.mpr ⟨Finset.mem_product.mpr ⟨Finset.mem_range.mpr this.1, Finset.mem_range.mpr this.2.1⟩, hs.2.2.2⟩, hs.2.2.1.symm⟩
    · have h1 := has_not_inSlab hro i.inv hz
      rw [hro.cell_slab ha hc (hro.region_cell ha hc hA)] at h1
      cases h1
  · simp only [Finset.mem_image, Finset.mem_filter] at hp
    obtain ⟨⟨j, k⟩, ⟨-, h2⟩, rfl⟩ := hp
    have hs : IsSmall ro w.σ (slotAddr ro.g (ro.regionStart a c) c j k) a c j k := ⟨ha, hc, rfl, h2⟩
    exact ⟨hs.area i.inv, ho _ ((i.inv.blk _).mpr (Or.inl ⟨a, c, j, k, hs⟩))⟩
  · simp only [Finset.mem_image, Finset.mem_filter] at hp
    obtain ⟨⟨j, k⟩, ⟨-, h2⟩, rfl⟩ := hp
    have hs : IsSmall ro w.σ (slotAddr ro.g (ro.regionStart a c) c j k) a c j k := ⟨ha, hc, rfl, h2⟩
    have q := hs.lt i.inv
    rw [slabNo_slot hc q.2.1]
    exact Finset.mem_filter.mpr ⟨Finset.mem_range.mpr q.1, q.2.2⟩
  · unfold CSys.access
    rw [← e, ← i.σ]
    constructor
    · intro hp
      have := access_loc_inv hro i.inv ha hc hx hp
      exact Finset.mem_filter.mpr ⟨Finset.mem_range.mpr this.1, this.2.1⟩
    · intro hm
      have q2 := (Finset.mem_filter.mp hm).2
      have geo := classGeo ro.g hc
      refine (i.inv.clsVm a c ha hc).rw _ x q2 (fun e => by have := geo.zero_iff.mpr e; omega) ?_
      unfold Ro.area at hx
      unfold inRange slabAddr Ro.slabNo
      have h1 := Nat.div_add_mod (x - ro.regionStart a c) (ro.g.slabSize c)
      have h2 := Nat.mod_lt (x - ro.regionStart a c) (y := ro.g.slabSize c) (by have := geo.slab_ge; omega)
      rw [Nat.mul_comm] at h1
      omega

/-- The bytes counted for large blocks. -/
theorem CReach.large_bytes (hg : Good g ar) (r : CReach g ro ar calm h s) (hq : quietForks h) (hp : allPlain h) (hst : ro.g.stats = true) :
    ∃ (B : Finset Nat) (size : Nat → Nat), s.σ.largeAllocated = (∑ p ∈ B, size p) % W64 ∧ LargeAt ro h s B size := by
  obtain ⟨hro, -⟩ := r.roOk hg
  obtain ⟨n0, w, h', s', r', i, e, el, ho, hu⟩ := r.owned hg hq
  have key : ∀ p, ∃ n, ∀ z gd, w.σ.rt.Has ⟨p, z, gd⟩ → n = z := by
    intro p
    by_cases hr : ∃ z gd, w.σ.rt.Has ⟨p, z, gd⟩
    · obtain ⟨z, gd, hr⟩ := hr
      refine ⟨z, fun z' gd' hz' => ?_⟩
      have := i.inv.has_unique hr hz' rfl
      simp only [RegionMeta.mk.injEq] at this
      exact this.2.1
    · exact ⟨0, fun z gd hz => absurd ⟨z, gd, hz⟩ hr⟩
  choose size k using key
  refine ⟨w.σ.rt.regs.image fun r => r.p, size, ?_, fun p hl hn => ?_, fun p hm => ?_⟩
  · obtain ⟨s1, s2⟩ := i.stat.large hst
    rw [hu hp, Nat.add_zero, Nat.mod_eq_of_lt s1] at s2
    rw [← e, ← i.σ, s2, Finset.sum_image]
    · unfold regionBytes
      congr 1
      exact Finset.sum_congr rfl fun ⟨q, z, gd⟩ hr => (k q z gd ((RegTable.mem_regs _ _).mp hr)).symm
    · intro x hx y hy exy
      exact i.inv.has_unique ((RegTable.mem_regs _ _).mp hx) ((RegTable.mem_regs _ _).mp hy) exy
  · have hl' : ((hold h').live p).isSome := by rw [el]; exact hl
    have hb : w.G.blk p ≠ .nobody := by rw [(i.app p).mpr hl']; simp
    rcases (i.inv.blk p).mp hb with ⟨a, c, j, k, hs⟩ | ⟨z, gd, hz⟩
    · have := hs.inSlab hro i.inv
      rw [Ro.inSlab, Bool.and_eq_true, decide_eq_true_eq, decide_eq_true_eq] at this
      exact absurd this.symm hn
    · refine ⟨Finset.mem_image.mpr ⟨_, (RegTable.mem_regs _ _).mpr hz, rfl⟩, ?_⟩
      rw [← e]
      exact (i.usable_iff hro hl').mpr (Or.inr ⟨gd, by rw [k p z gd hz]; exact hz⟩)
  · obtain ⟨⟨q, z, gd⟩, q1, rfl⟩ := Finset.mem_image.mp hm
    have q1 := (RegTable.mem_regs _ _).mp q1
    refine ⟨fun hh => ?_, ho _ ((i.inv.blk _).mpr (Or.inr ⟨z, gd, q1⟩))⟩
    have := has_not_inSlab hro i.inv q1
    unfold Ro.inSlab at this
    simp only [hh.1, hh.2, decide_true, Bool.and_self] at this
    cases this

theorem CSteps.quietForks {h0 : List CEv} {s0 : CSys} (st : CSteps ro ar calm h0 s0 h s) (hq : HM.quietForks h) : HM.quietForks h0 := by
  induction st with
  | refl => exact hq
  | tail _ st ih => exact ih (hq.tail st)

theorem CSteps.suffix {h0 : List CEv} {s0 : CSys} (st : CSteps ro ar calm h0 s0 h s) : h0 <:+ h := by
  induction st with
  | refl => exact List.suffix_rfl
  | tail _ st ih =>
    cases st with
    | step => exact ih
    | _ => exact ih.trans (List.suffix_cons _ _)

/-- C71. A call of `mallinfo` is about to return, while other threads may be anywhere in calls of their own. It began with the event `.inv t .mallinfo b`. What it
reports as allocated is `large` plus the sum of the bytes in the blocks `S a c` of size class `c` of arena `a` (modulo 2^64), and what it reports as mapped is `large`
plus the sum of the sizes of the slabs `N a c`, where:
- `S a c` were the blocks of this class, and `N a c` its slabs in use, at some moment `h'`, `s'` between the beginning of the call and now (`ClassAt`).
- `large` was the number of bytes in the large blocks at some such moment (`LargeAt`; if no call asked for an alignment of more than a page so far, as in C29). -/
theorem c71_mallinfo_partial (hg : Good g ar) (r : CReach g ro ar calm h s) (hq : quietForks h) (hst : g.stats = true) {m : MallInfo}
    (hc : s.run t = some (.mallinfo, .ret (.info m))) :
    ∃ (hp l : List CEv) (b : Nat) (s0 : CSys), h = l ++ .inv t .mallinfo b :: hp ∧ (∀ c x b, .ret t c x ∉ l ∧ .inv t c b ∉ l) ∧
      CReach g ro ar calm (.inv t .mallinfo b :: hp) s0 ∧
    ∃ (large : Nat) (S N : Nat → Nat → Finset Nat),
      m.uordblks = (large + ∑ a ∈ Finset.range g.nArena, ∑ c ∈ Finset.range (nClasses g), g.slotSize c * (S a c).card) % 2 ^ 64 ∧
      m.hblkhd = (large + ∑ a ∈ Finset.range g.nArena, ∑ c ∈ Finset.range (nClasses g), g.slabSize c * (N a c).card) % 2 ^ 64 ∧
      (m.fordblks + m.uordblks) % 2 ^ 64 = m.hblkhd ∧ m.usmblks = m.hblkhd ∧
      (∀ a c, a < g.nArena → c < nClasses g → ∃ h' s', Between ro ar calm (.inv t .mallinfo b :: hp) s0 h s h' s' ∧ ClassAt ro a c h' s' (S a c) (N a c)) ∧
      (allPlain h → ∃ h' s', Between ro ar calm (.inv t .mallinfo b :: hp) s0 h s h' s' ∧
        ∃ (B : Finset Nat) (size : Nat → Nat), large = ∑ p ∈ B, size p ∧ LargeAt ro h' s' B size) := by
  obtain ⟨hro, rfl⟩ := r.roOk hg
  obtain ⟨-, hp, l, b, s0, k1, k2, k3, -, k4, k5⟩ := r.follow (t := t) (mallinfo_readsOnly _) _ hc
  refine ⟨hp, l, b, s0, k1, k2, k3, ?_⟩
  have hM := k5 (fun σ => ∃ h' s', Between ro ar calm (.inv t .mallinfo b :: hp) s0 h s h' s' ∧ s'.σ = σ) (fun h' s' hb => ⟨h', s', hb, rfl⟩) _ (.ret _)
  obtain ⟨m', Y, X, e1, ⟨hY, sY, bY, rfl⟩, hX, e2, e3, e4, e5⟩ := mallinfo_fed hst (fun σ ⟨h', s', hb, e⟩ => by
    obtain ⟨w, _, i⟩ := (k3.steps hb.1).inv hg
    rw [← e, ← i.σ]
    exact (i.stat.large hst).1) hM
  cases e1
  have hS : ∀ a c, ∃ S N : Finset Nat, a < ro.g.nArena → c < nClasses ro.g → (((X a c).sc a c).allocated = ro.g.slotSize c * S.card % W64 ∧
      ((X a c).sc a c).slabAllocated = ro.g.slabSize c * N.card % W64 ∧ ∃ h' s', Between ro ar calm (.inv t .mallinfo b :: hp) s0 h s h' s' ∧ ClassAt ro a c h' s' S N) := by
    intro a c
    by_cases hac : a < ro.g.nArena ∧ c < nClasses ro.g
    · obtain ⟨h', s', hb, e⟩ := hX a c hac.1 hac.2
      obtain ⟨S, N, q1, q2, q3⟩ := (k3.steps hb.1).class_bytes hg (hb.2.quietForks hq) hst hac.1 hac.2
      exact ⟨S, N, fun _ _ => ⟨by rw [← e]; exact q1, by rw [← e]; exact q2, h', s', hb, q3⟩⟩
    · exact ⟨∅, ∅, fun h1 h2 => absurd ⟨h1, h2⟩ hac⟩
  choose S N hSN using hS
  have hsum : ∀ f f' : Nat → Nat → Nat, (∀ a c, a < ro.g.nArena → c < nClasses ro.g → f a c = f' a c % W64) →
      (∑ a ∈ Finset.range ro.g.nArena, ∑ c ∈ Finset.range (nClasses ro.g), f a c) % W64 =
      (∑ a ∈ Finset.range ro.g.nArena, ∑ c ∈ Finset.range (nClasses ro.g), f' a c) % W64 := by
    intro f f' hf
    rw [Finset.sum_nat_mod, Finset.sum_nat_mod (Finset.range ro.g.nArena) W64 fun a => ∑ c ∈ Finset.range (nClasses ro.g), f' a c]
    congr 1
    refine Finset.sum_congr rfl fun a ha => ?_
    rw [Finset.sum_nat_mod, Finset.sum_nat_mod (Finset.range (nClasses ro.g)) W64 fun c => f' a c]
    congr 1
    refine Finset.sum_congr rfl fun c hc => ?_
    rw [hf a c (Finset.mem_range.mp ha) (Finset.mem_range.mp hc), Nat.mod_mod]
  have s1 := hsum _ (fun a c => ro.g.slotSize c * (S a c).card) fun a c ha hc => (hSN a c ha hc).1
  have s2 := hsum _ (fun a c => ro.g.slabSize c * (N a c).card) fun a c ha hc => (hSN a c ha hc).2.1
  by_cases hpl : allPlain h
  · obtain ⟨B, size, q1, q2⟩ := (k3.steps bY.1).large_bytes hg (bY.2.quietForks hq) (fun u c b hm => hpl u c b (bY.2.suffix.subset hm)) hst
    refine ⟨∑ p ∈ B, size p, S, N, ?_, ?_, e4, e5, fun a c ha hc => (hSN a c ha hc).2.2, fun _ => ⟨hY, sY, bY, B, size, rfl, q2⟩⟩
    · rw [e2, q1]
      show _ = _ % W64
      omega
    · rw [e3, q1]
      show _ = _ % W64
      omega
  · refine ⟨sY.σ.largeAllocated, S, N, ?_, ?_, e4, e5, fun a c ha hc => (hSN a c ha hc).2.2, fun h => absurd h hpl⟩
    · rw [e2]
      show _ = _ % W64
      omega
    · rw [e3]
      show _ = _ % W64
      omega

/-- The sum need not be right for a single moment: thread 2 calls `mallinfo`, and when it has read the counters of arena 0, which has one block of 112 bytes, thread 1
frees this block and then allocates one in arena 1. `mallinfo` reports 224 bytes, although there was never more than one block. When it returns, thread 4 is
allocating. -/
example : ∃ h s m, CReach (exCfg true false) (exRo true false) (fun t => t % 4) true h s ∧ quietForks h ∧ allPlain h ∧ (exCfg true false).stats = true ∧
    s.run 2 = some (.mallinfo, .ret (.info m)) ∧ m.uordblks = 224 ∧ Working h ∧
    h = [.inv 4 (.malloc 100) 0, .ret 1 (.malloc 100) (.ptr 4947802329088), .inv 1 (.malloc 100) 0, .ret 1 (.free exA) .unit, .inv 1 (.free exA) exA, .inv 2 .mallinfo 0,
      .ret 0 (.malloc 100) (.ptr exA), .inv 0 (.malloc 100) 0] := by
  have key : ((exRunC true false [.inv 0 (.malloc 100) 0, .go 0 99 0, .ret 0, .inv 2 .mallinfo 0, .go 2 52 0, .inv 1 (.free exA) exA, .go 1 99 0, .ret 1, .inv 1 (.malloc 100) 0, .go 1 99 0, .ret 1,
      .inv 4 (.malloc 100) 0, .go 4 1 0, .go 2 999 0]).any fun x =>
      decide (x.1 = [.inv 4 (.malloc 100) 0, .ret 1 (.malloc 100) (.ptr 4947802329088), .inv 1 (.malloc 100) 0, .ret 1 (.free exA) .unit, .inv 1 (.free exA) exA, .inv 2 .mallinfo 0,
        .ret 0 (.malloc 100) (.ptr exA), .inv 0 (.malloc 100) 0]) &&
      match x.2.run 2 with | some (.mallinfo, .ret (.info m)) => decide (m.uordblks = 224) | _ => false) = true := by decide +kernel
  rw [Option.any_eq_true] at key
  obtain ⟨⟨h, s⟩, k1, k2⟩ := key
  simp only [Bool.and_eq_true, decide_eq_true_eq] at k2
  obtain ⟨rfl, k3⟩ := k2
  split at k3
  · rename_i m e
    rw [decide_eq_true_eq] at k3
    refine ⟨_, s, m, runC_reach (.init (exInit true false) fun _ => rfl) k1, by simp [quietForks], ?_, rfl, e, k3, ⟨4, .malloc 100, by simp [busy], by simp⟩, rfl⟩
    intro t c b hm
    simp only [List.mem_cons, reduceCtorEq, false_or, List.not_mem_nil, or_false, CEv.inv.injEq] at hm
    rcases hm with ⟨_, rfl, _⟩ | ⟨_, rfl, _⟩ | ⟨_, rfl, _⟩ | ⟨_, rfl, _⟩ | ⟨_, rfl, _⟩ <;> simp [Call.Plain]
  · cases k3

end HM
