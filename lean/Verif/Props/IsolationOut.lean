import Verif.Props.Isolation
/-
C73, the other direction. The threads that use no size class in `S` are not influenced by the threads that use only the size classes in `S`: large blocks, and the blocks of other
size classes and arenas, do not depend on what happens in the size classes in `S`.
-/
namespace HM

variable {g : Cfg} {ro : Ro} {ar : Nat → Nat} {calm : Bool} {S : Nat → Nat → Bool} {T : Nat → Bool} {rd : Bool}

/-- The move is one of a thread outside of `T`, or a store to memory outside of the size classes in `S`, or a fork, or somebody else maps or releases a page. -/
def Move.concernsOut (ro : Ro) (S : Nat → Nat → Bool) (T : Nat → Bool) : Move → Bool
  | .inv t _ | .go t _ | .ret t | .errno t _ => !T t
  | .store x _ => !ro.inArea S x
  | .fork _ => true
  | .other _ _ _ => true

/-- Two states look the same to the threads outside of `T`. -/
structure AlikeOut (ro : Ro) (S : Nat → Nat → Bool) (T : Nat → Bool) (h : List CEv) (s : CSys) (h' : List CEv) (s' : CSys) : Prop where
  cell : ∀ l, ¬ InS ro S l → s'.σ.agree s.σ l
  tl : ∀ t, T t = false → s'.tl t = s.tl t
  run : ∀ t, T t = false → s'.run t = s.run t
  ret : returnedTo (fun t => !T t) h' = returnedTo (fun t => !T t) h

theorem AlikeOut.refl (h : List CEv) (s : CSys) : AlikeOut ro S T h s h s := ⟨fun _ _ => St.agree.rfl, fun _ _ => rfl, fun _ _ => rfl, rfl⟩

theorem AlikeOut.symm {h h' : List CEv} {s s' : CSys} (a : AlikeOut ro S T h s h' s') : AlikeOut ro S T h' s' h s :=
  ⟨fun l hl => (a.cell l hl).symm, fun t ht => (a.tl t ht).symm, fun t ht => (a.run t ht).symm, a.ret.symm⟩

theorem AlikeOut.trans {h h' h'' : List CEv} {s s' s'' : CSys} (a : AlikeOut ro S T h s h' s') (b : AlikeOut ro S T h' s' h'' s'') : AlikeOut ro S T h s h'' s'' :=
  ⟨fun l hl => (b.cell l hl).trans (a.cell l hl), fun t ht => (b.tl t ht).trans (a.tl t ht), fun t ht => (b.run t ht).trans (a.run t ht), b.ret.trans a.ret⟩

/-- An action of a thread in `T` changes nothing outside of `S`. -/
theorem Side.keepsOut (hro : RoOk ro) {n0 : Nat → Nat} {h : List CEv} {s : CSys} {w : World} (d : Side ro calm S T rd n0 h s w) {t : Nat} (ht : T t = true) {c : Call} {β : Type}
    {l : Option Sect} {f : Choice → St → Tl → Res (St × Tl × β)} {k : β → Prog Ret} (hc : s.run t = some (c, .act (l := l) f k)) {ch : Choice} (he : CEnv calm c ch)
    {r : St × Tl × β} (hr : f ch s.σ (s.tl t) = .ok r) {x : Cell} (hx : ¬ InS ro S x) : r.1.agree s.σ x := by
  rcases (d.ins t _ _ ht hc).1 with ⟨a', c', fr, rfl, h1, h2, h3⟩ | h1
  · obtain ⟨ch', hs, hch, _⟩ := d.inv.settle hc he
    have hl := (d.inv.wp hc).1 rfl
    have hσ : w.σ = s.σ := d.inv.σ
    rw [← hch, ← hσ] at hr
    rw [← hσ]
    exact hl.keeps (d.inv.env ▸ hs.fair) (N := fun c => ¬ (Sect.cls a' c' fr).uses ro w.σ c) (fun c h => not_not.mpr h) hr fun hu => hx (uses_inS hro h1 h2 h3 hu)
  · exact (h1 s.σ s.σ (fun _ _ => St.agree.rfl) ch (s.tl t)).2 r hr x hx

/-- A live byte in the area of `S` is in the memory of a class in `S`. -/
theorem user_inS (hro : RoOk ro) {w : World} (hi : GInv ro w) {p x : Nat} (hu : UserByte ro w p x) (hx : ro.inArea S x = true) : InS ro S (.mem x) := by
  rcases hu with ⟨a, c, i, k, h1, h2, h3⟩ | ⟨sz, gd, h1, h3⟩
  · obtain ⟨hil, hkl, _⟩ := h1.lt hi
    obtain ⟨ha, hc, rfl, hl⟩ := h1
    have hm : ClassMem ro a c x := slot_classMem hc hil hkl (by unfold inRange at *; omega)
    rw [hm.area hro hi ha hc] at hx
    exact ⟨a, c, ha, hc, hx, hm⟩
  · have e := hi.reg_body h1 (inPages_of_pageUp (hi.reg _ h1).pmod h3)
    have := (Bool.and_eq_true_iff.mp hx).1
    rw [inSlab_iff hro hi, e] at this
    cases this

/-- A move that does not concern the threads outside of `T` makes no difference to them. -/
theorem Side.stepOut (hro : RoOk ro) {n0 : Nat → Nat} {h h' : List CEv} {s s' : CSys} {w : World} (d : Side ro calm S T rd n0 h s w) {m : Move}
    (st : XStep ro ar calm h s m h' s') (hm : m.concernsOut ro S T = false) : AlikeOut ro S T h s h' s' := by
  cases st with
  | invoke t c b hi hok hl =>
    exact ⟨fun _ _ => St.agree.rfl, fun _ _ => rfl, fun u hu => if_neg (by rintro rfl; simp [Move.concernsOut, hu] at hm), by simp [returnedTo, returned]⟩
  | @step t c β l f k hc ch he σ' tl' b hf =>
    have ht : T t = true := by simpa [Move.concernsOut] using hm
    exact ⟨fun x hx => d.keepsOut hro ht hc he hf hx, fun u hu => if_neg (by rintro rfl; rw [hu] at ht; cases ht), fun u hu => if_neg (by rintro rfl; rw [hu] at ht; cases ht), rfl⟩
  | @ret t c x hc =>
    have ht : T t = true := by simpa [Move.concernsOut] using hm
    exact ⟨fun _ _ => St.agree.rfl, fun _ _ => rfl, fun u hu => if_neg (by rintro rfl; rw [hu] at ht; cases ht), by rw [returnedTo_cons_ret]; simp [ht]⟩
  | store x v hp hu h1 h2 =>
    refine ⟨fun l hl => ?_, fun _ _ => rfl, fun _ _ => rfl, by simp [returnedTo, returned]⟩
    have hx : ro.inArea S x = true := by simpa [Move.concernsOut] using hm
    have happ := (d.inv.app _).mpr hp
    have hub : UserByte ro w _ x := UsableIs.user' (app_eff d.inv.inv happ) ((d.inv.usable_iff hro hp).mp hu) (by unfold inRange; omega)
    cases l with
    | regs => exact ⟨rfl, rfl, rfl, rfl, rfl⟩
    | sc a c => rfl
    | prot pg => exact congrFun (appStore_prot _ _ _) pg
    | mem y =>
      show (s.σ.vm.appStore x v).mem y = s.σ.vm.mem y
      by_contra hne
      have e := (appStore_mem _ _ _ _ hne).1
      subst e
      exact hl (user_inS hro d.inv.inv hub hx)
  | errno t e hi =>
    have ht : T t = true := by simpa [Move.concernsOut] using hm
    exact ⟨fun _ _ => St.agree.rfl, fun u hu => if_neg (by rintro rfl; rw [hu] at ht; cases ht), fun _ _ => rfl, by simp [returnedTo, returned]⟩
  | fork t hi => cases hm
  | other pg pr data hp => cases hm

/-- The next action of a thread outside of `T` has the same outcome in states that look the same to it. -/
theorem Side.nextOut (hro : RoOk ro) {n0 n0' : Nat → Nat} {h h' : List CEv} {s s' : CSys} {w w' : World} (d : Side ro calm S T false n0 h s w)
    (d' : Side ro calm S T false n0' h' s' w') (a : AlikeOut ro S T h s h' s') {t : Nat}
    (ht : T t = false) {c : Call} {β : Type} {l : Option Sect} {f : Choice → St → Tl → Res (St × Tl × β)} {k : β → Prog Ret} (hc : s.run t = some (c, .act (l := l) f k))
    {ch : Choice} (he : CEnv calm c ch) :
    Res.Rel (fun r r' => r'.2 = r.2 ∧ ∀ l, ¬ InS ro S l → r'.1.agree r.1 l) (f ch s.σ (s.tl t)) (f ch s'.σ (s.tl t)) := by
  have hav := (d.out t _ _ ht hc).1.resolve_right fun h => by cases h.1
  obtain ⟨ch', hs, hch, _⟩ := d.inv.settle hc he
  have hl := (d.inv.wp hc).1 rfl
  have hσ : w.σ = s.σ := d.inv.σ
  have hi := d.inv.inv
  have hfair := d.inv.env ▸ hs.fair
  by_cases hbad : ∃ a c fr, l = some (.cls a c fr) ∧ ¬ (a < ro.g.nArena ∧ c < nClasses ro.g)
  · obtain ⟨a1, c1, fr, rfl, hne⟩ := hbad
    have h1 := ((hav a1 c1 fr rfl).2.resolve_left hne) ch s.σ s'.σ (s.tl t)
    rw [h1]
    have h2 := ((hl.1 a1 c1 fr rfl).resolve_left fun h => hne ⟨h.1, h.2.1⟩).2 ch s.σ
    cases hr : f ch s.σ (s.tl t) with
    | ok r => exact absurd hr (h2 r)
    | _ => first | trivial | exact rfl
  have hn : Noise ro (t + 1) l w (InS ro S) s'.σ := by
    cases l with
    | some sec =>
      intro x hu hx
      have hex : sec.Exists ro := by
        cases sec with
        | regions _ _ => trivial
        | cls a c fr => exact not_not.mp fun h => hbad ⟨a, c, fr, rfl, h⟩
      exact uses_not_inS hro hex (fun a c fr e => by subst e; exact (hav a c fr rfl).1 hex.1 hex.2) hx hu
    | none =>
      refine ⟨fun pg hp => ?_, fun y hy => ?_⟩
      · obtain ⟨a, c, h1, h2, h3, h4⟩ := hp
        have ho := hi.class_own hro h1 h2 h4
        rw [Nat.mul_div_cancel _ (by decide : 0 < PAGE)] at ho
        have ho' := d'.inv.inv.class_own hro h1 h2 h4
        rw [Nat.mul_div_cancel _ (by decide : 0 < PAGE)] at ho'
        refine ⟨ho, by rw [← d'.inv.σ]; exact d'.inv.inv.mapped pg (by rw [ho']; simp), fun p y hb hu e => ?_⟩
        have := user_area (S := S) hro hi h1 h2 h3 (classMem_page hro h1 h2 h4 (by rw [Nat.mul_div_cancel _ (by decide : 0 < PAGE)]; exact e)) hu
        rw [d.blk t p ht hb] at this; cases this
      · obtain ⟨a, c, h1, h2, h3, h4⟩ := hy
        refine ⟨hi.class_own hro h1 h2 h4, fun p hb hu => ?_⟩
        have := user_area (S := S) hro hi h1 h2 h3 h4 hu
        rw [d.blk t p ht hb] at this; cases this
  have e := St.eq_patch (σ := w.σ) (ν := s'.σ) (N := InS ro S) fun x hx => by
    rw [hσ]; exact a.cell x hx
  have key := hl.2 ch' hfair _ s'.σ hn
  rw [← e, hch, hch, hσ] at key
  cases hr : f ch s.σ (s.tl t) with
  | ok r =>
    rw [hr] at key
    obtain ⟨r', e', hr'⟩ := key.ok_left
    rw [e']
    refine ⟨by rw [hr'], fun x hx => ?_⟩
    rw [hr']
    exact St.patch_out (N := InS ro S) hx
  | fatal m => rw [hr] at key; cases e' : f ch s'.σ (s.tl t) <;> rw [e'] at key <;> exact key
  | segv => rw [hr] at key; cases e' : f ch s'.σ (s.tl t) <;> rw [e'] at key <;> exact key
  | ub m => rw [hr] at key; cases e' : f ch s'.σ (s.tl t) <;> rw [e'] at key <;> exact key
  | hang => rw [hr] at key; cases e' : f ch s'.σ (s.tl t) <;> rw [e'] at key <;> exact key

/-- A move that concerns the threads outside of `T`, made in two states that look the same to them. -/
theorem Side.bothOut (hro : RoOk ro) {n0 n0' : Nat → Nat} {h1 h1' h2 h2' : List CEv} {s1 s1' s2 s2' : CSys} {w w' : World} (d : Side ro calm S T false n0 h1 s1 w)
    (d' : Side ro calm S T false n0' h2 s2 w') (a : AlikeOut ro S T h1 s1 h2 s2) {m : Move} (hm : m.concernsOut ro S T = true) (st1 : XStep ro ar calm h1 s1 m h1' s1')
    (st2 : XStep ro ar calm h2 s2 m h2' s2') : AlikeOut ro S T h1' s1' h2' s2' := by
  have hupd : ∀ {α : Type 1} (f f' : Nat → α) (t : Nat) (x : α), (∀ u, T u = false → f' u = f u) → ∀ u, T u = false → upd f' t x u = upd f t x u := by
    intro α f f' t x hf u hu
    unfold upd
    split
    · rfl
    · exact hf u hu
  have hupd' : ∀ (f f' : Nat → Tl) (t : Nat) (x : Tl), (∀ u, T u = false → f' u = f u) → ∀ u, T u = false → upd f' t x u = upd f t x u := by
    intro f f' t x hf u hu
    unfold upd
    split
    · rfl
    · exact hf u hu
  cases st1 with
  | invoke t c b hi hok hl =>
    cases st2 with
    | invoke _ _ b' hi' hok' hl' => exact ⟨a.cell, a.tl, hupd _ _ _ _ a.run, by simpa [returnedTo, returned] using a.ret⟩
  | @step t c β l f k hc ch he σ' tl' b hf =>
    cases st2 with
    | @step _ c' β' l' f' k' hc' _ he' σ'' tl'' b' hf' =>
      have ht : T t = false := by simpa [Move.concernsOut] using hm
      have e := (a.run t ht).symm.trans hc'
      rw [hc] at e
      cases e
      have key := d.nextOut hro d' a ht hc he
      rw [a.tl t ht] at hf'
      rw [hf, hf'] at key
      obtain ⟨k1, k2⟩ := key
      cases k1
      exact ⟨k2, hupd' _ _ _ _ a.tl, hupd _ _ _ _ a.run, a.ret⟩
  | @ret t c x hc =>
    cases st2 with
    | @ret _ c' x' hc' =>
      have ht : T t = false := by simpa [Move.concernsOut] using hm
      have e := (a.run t ht).symm.trans hc'
      rw [hc] at e
      cases e
      exact ⟨a.cell, a.tl, hupd _ _ _ _ a.run, by rw [returnedTo_cons_ret, returnedTo_cons_ret, a.ret]⟩
  | store x v hp hu k1 k2 =>
    cases st2 with
    | store _ _ hp' hu' k1' k2' =>
      refine ⟨fun l hl => ?_, a.tl, a.run, by simpa [returnedTo, returned] using a.ret⟩
      cases l with
      | regs => exact a.cell .regs hl
      | sc i j => exact a.cell (.sc i j) hl
      | prot pg =>
        show (s2.σ.vm.appStore x v).prot pg = (s1.σ.vm.appStore x v).prot pg
        rw [appStore_prot, appStore_prot]
        exact a.cell (.prot pg) hl
      | mem y =>
        have hy : s2.σ.vm.mem y = s1.σ.vm.mem y := a.cell (.mem y) hl
        show (s2.σ.vm.appStore x v).mem y = (s1.σ.vm.appStore x v).mem y
        by_cases e : y = x
        · subst e
          have hpr : s2.σ.vm.prot (y / PAGE) = s1.σ.vm.prot (y / PAGE) := by
            refine a.cell (.prot (y / PAGE)) fun ⟨i, j, q1, q2, q3, q4⟩ => hl ⟨i, j, q1, q2, q3, ?_⟩
            exact classMem_page hro q1 q2 q4 (by rw [Nat.mul_div_cancel _ (by decide : 0 < PAGE)])
          unfold Vm.appStore
          rw [hpr]
          split
          · simp
          · exact hy
        · unfold Vm.appStore
          split <;> split <;> simp [e, hy]
  | errno t e hi =>
    cases st2 with
    | errno _ _ hi' =>
      have ht : T t = false := by simpa [Move.concernsOut] using hm
      refine ⟨a.cell, ?_, a.run, by simpa [returnedTo, returned] using a.ret⟩
      rw [a.tl t ht]
      exact hupd' _ _ _ _ a.tl
  | fork t hi =>
    cases st2 with
    | fork _ hi' =>
      refine ⟨a.cell, fun u hu => ?_, fun _ _ => rfl, by simpa [returnedTo, returned] using a.ret⟩
      show (if u = t then s2.tl t else _) = if u = t then s1.tl t else _
      split
      · subst u; exact a.tl t hu
      · rfl
  | other pg pr data hp =>
    cases st2 with
    | other _ _ _ hp' =>
      refine ⟨fun l hl => ?_, a.tl, a.run, by simpa [returnedTo, returned] using a.ret⟩
      cases l with
      | regs => exact a.cell .regs hl
      | sc i j => exact a.cell (.sc i j) hl
      | prot q =>
        have := a.cell (.prot q) hl
        simp only [St.agree, Vm.foreign] at this ⊢
        split
        · rfl
        · exact this
      | mem y =>
        have := a.cell (.mem y) hl
        simp only [St.agree, Vm.foreign] at this ⊢
        split
        · rfl
        · exact this

theorem Exec.alikeOut (hg : Good g ar) (hro : RoOk ro) (eg : ro.g = g) {h0 : List CEv} {s0 : CSys} (r : CReach g ro ar calm h0 s0) (hq : ∀ t, s0.run t = none) {A B : List Move}
    {h1 h2 : List CEv} {s1 s2 : CSys} (e1 : Exec ro ar calm h0 s0 A h1 s1) (e2 : Exec ro ar calm h0 s0 B h2 s2)
    (hA1 : KeptApart ro ar S T A) (hA2 : KeptApart ro ar S T B) (hI1 : ∀ t, .inv t .mallinfo ∉ A) (hI2 : ∀ t, .inv t .mallinfo ∉ B)
    (hv : A.filter (Move.concernsOut ro S T) = B.filter (Move.concernsOut ro S T)) : AlikeOut ro S T h1 s1 h2 s2 := by
  have tl : ∀ {m : Move} {A : List Move}, (∀ t, .inv t .mallinfo ∉ m :: A) → ∀ t, .inv t .mallinfo ∉ A := fun h t hm => h t (List.mem_cons_of_mem _ hm)
  induction e1 generalizing B h2 s2 with
  | nil =>
    induction e2 with
    | nil => exact .refl _ _
    | @cons B h h' s s' m e st ih =>
      cases hm : m.concernsOut ro S T with
      | true => rw [List.filter_cons_of_pos hm] at hv; simp at hv
      | false =>
        rw [List.filter_cons_of_neg (by simp [hm])] at hv
        obtain ⟨n0, w, d⟩ := e.side (rd := false) hg hro eg r hq hA2.tail fun _ => tl hI2
        exact (ih hA2.tail (tl hI2) hv).trans (d.stepOut hro st hm)
  | @cons A h h' s s' m e st ih =>
    obtain ⟨n0, w, d⟩ := e.side (rd := false) hg hro eg r hq hA1.tail fun _ => tl hI1
    cases hm : m.concernsOut ro S T with
    | false =>
      rw [List.filter_cons_of_neg (by simp [hm])] at hv
      exact (d.stepOut hro st hm).symm.trans (ih e2 hA1.tail hA2 (tl hI1) hI2 hv)
    | true =>
      rw [List.filter_cons_of_pos hm] at hv
      induction e2 with
      | nil => simp at hv
      | @cons B h2 h2' s2 s2' m' e2 st2 ih2 =>
        obtain ⟨n0', w', d'⟩ := e2.side (rd := false) hg hro eg r hq hA2.tail fun _ => tl hI2
        cases hm' : m'.concernsOut ro S T with
        | false =>
          rw [List.filter_cons_of_neg (by simp [hm'])] at hv
          exact (ih2 hA2.tail (tl hI2) hv).trans (d'.stepOut hro st2 hm')
        | true =>
          rw [List.filter_cons_of_pos hm'] at hv
          obtain ⟨em, hv'⟩ := List.cons.inj hv
          subst em
          exact d.bothOut hro d' (ih e2 hA1.tail hA2.tail (tl hI1) (tl hI2) hv') hm st st2

/-! ### The property -/

/-- C73, the other direction. Two executions begin in the same reachable state, in which no call is in progress. From there on, in both, the threads in `T` use the size classes in `S` only,
and the other threads use no size class in `S` (`KeptApart`; nobody calls `malloc_trim` and `mallinfo`, which look at all size classes). The moves that concern the threads outside of `T`
(their calls, actions with the random numbers and the answers of the kernel, returns and settings of errno; stores outside of the memory of `S`; forks; mappings by others) are the
same in both. Then the calls of the threads outside of `T` returned the same in both, these threads are at the same place in their calls, with the same errno, and the bytes and
permissions of all memory outside of the size classes in `S` are the same; whatever else the threads in `T` did in either execution. -/
theorem c73_isolation_out (hg : Good g ar) {h0 : List CEv} {s0 : CSys} (r : CReach g ro ar calm h0 s0) (hq : ∀ t, s0.run t = none) {A B : List Move} {h1 h2 : List CEv}
    {s1 s2 : CSys} (e1 : Exec ro ar calm h0 s0 A h1 s1) (e2 : Exec ro ar calm h0 s0 B h2 s2)
    (hA1 : KeptApart ro ar S T A) (hA2 : KeptApart ro ar S T B) (hI1 : ∀ t, .inv t .mallinfo ∉ A) (hI2 : ∀ t, .inv t .mallinfo ∉ B)
    (hv : A.filter (Move.concernsOut ro S T) = B.filter (Move.concernsOut ro S T)) :
    returnedTo (fun t => !T t) h1 = returnedTo (fun t => !T t) h2 ∧ (∀ t, T t = false → s1.run t = s2.run t ∧ s1.tl t = s2.tl t) ∧
    ∀ x, (∀ a c, a < ro.g.nArena → c < nClasses ro.g → S a c = true → ¬ (ro.regionStart a c ≤ x ∧ x < ro.regionStart a c + ro.g.metaMax c * ro.g.slabSize c)) →
      s1.σ.vm.mem x = s2.σ.vm.mem x ∧ s1.σ.vm.prot (x / 4096) = s2.σ.vm.prot (x / 4096) := by
  obtain ⟨hro, eg⟩ := r.roOk hg
  have k := (e1.alikeOut hg hro eg r hq e2 hA1 hA2 hI1 hI2 hv).symm
  refine ⟨k.ret, fun t ht => ⟨k.run t ht, k.tl t ht⟩, fun x hx => ⟨k.cell (.mem x) fun ⟨a, c, p1, p2, p3, p4⟩ => hx a c p1 p2 p3 p4,
    k.cell (.prot (x / 4096)) fun ⟨a, c, p1, p2, p3, p4⟩ => hx a c p1 p2 p3 ?_⟩⟩
  exact classMem_page hro p1 p2 p4 (by rw [Nat.mul_div_cancel _ (by decide : 0 < PAGE)])

/-- C73, the other direction, how calls end: in two such executions, the next action of a thread outside of `T`, with the same random numbers and answers of the kernel, continues in both,
with the same result, or ends the process in both, in the same way and with the same message. -/
theorem c73_outcome_out (hg : Good g ar) {h0 : List CEv} {s0 : CSys} (r : CReach g ro ar calm h0 s0) (hq : ∀ t, s0.run t = none) {A B : List Move} {h1 h2 : List CEv}
    {s1 s2 : CSys} (e1 : Exec ro ar calm h0 s0 A h1 s1) (e2 : Exec ro ar calm h0 s0 B h2 s2)
    (hA1 : KeptApart ro ar S T A) (hA2 : KeptApart ro ar S T B) (hI1 : ∀ t, .inv t .mallinfo ∉ A) (hI2 : ∀ t, .inv t .mallinfo ∉ B)
    (hv : A.filter (Move.concernsOut ro S T) = B.filter (Move.concernsOut ro S T)) {t : Nat} (ht : T t = false) {c : Call} {β : Type}
    {l : Option Sect} {f : Choice → St → Tl → Res (St × Tl × β)} {k : β → Prog Ret} (hc : s1.run t = some (c, .act (l := l) f k)) {ch : Choice} (he : CEnv calm c ch) :
    s2.run t = some (c, .act (l := l) f k) ∧ Res.Rel (fun r r' => r.2 = r'.2) (f ch s1.σ (s1.tl t)) (f ch s2.σ (s2.tl t)) := by
  obtain ⟨hro, eg⟩ := r.roOk hg
  have q := e1.alikeOut hg hro eg r hq e2 hA1 hA2 hI1 hI2 hv
  obtain ⟨n0, w, d⟩ := e1.side (rd := false) hg hro eg r hq hA1 fun _ => hI1
  obtain ⟨n0', w', d'⟩ := e2.side (rd := false) hg hro eg r hq hA2 fun _ => hI2
  refine ⟨(q.run t ht).trans hc, ?_⟩
  have key := d.nextOut hro d' q ht hc he
  rw [q.tl t ht]
  cases e : f ch s1.σ (s1.tl t) <;> cases e' : f ch s2.σ (s1.tl t) <;> rw [e, e'] at key <;> first | exact key.1.symm | exact key

/-! ### Example -/

theorem apartB_info {A : List Move} (e : apartB ro ar S T A = true) (t : Nat) : .inv t .mallinfo ∉ A := fun hm => by
  have k := List.all_eq_true.mp e _ hm
  cases k

/-- Two executions as in `c73_isolation_out`: in one, thread 0 does nothing; in the other, it allocates, frees, allocates again and resizes, in the size classes of arena 0. In both,
thread 1 allocates a block in arena 1, and is in a call of `malloc` for a large block. -/
example : ∃ h1 s1 h2 s2, Exec (exRo false true) (fun t => t % 4) true [] ⟨exSt, fun _ => ⟨0, false⟩, fun _ => none, fun _ => exSt⟩ exIsoOther.reverse h1 s1 ∧
    Exec (exRo false true) (fun t => t % 4) true [] ⟨exSt, fun _ => ⟨0, false⟩, fun _ => none, fun _ => exSt⟩ (exIso exIsoOther) h2 s2 ∧
    CReach (exCfg false true) (exRo false true) (fun t => t % 4) true [] ⟨exSt, fun _ => ⟨0, false⟩, fun _ => none, fun _ => exSt⟩ ∧
    KeptApart (exRo false true) (fun t => t % 4) exIsoS exIsoT exIsoOther.reverse ∧ KeptApart (exRo false true) (fun t => t % 4) exIsoS exIsoT (exIso exIsoOther) ∧
    (∀ t, .inv t .mallinfo ∉ exIsoOther.reverse) ∧ (∀ t, .inv t .mallinfo ∉ exIso exIsoOther) ∧
    exIsoOther.reverse.filter (Move.concernsOut (exRo false true) exIsoS exIsoT) = (exIso exIsoOther).filter (Move.concernsOut (exRo false true) exIsoS exIsoT) ∧
    (returnedTo (fun t => !exIsoT t) h1).length = 1 ∧ (returned h1).length = 1 ∧ (returned h2).length = 5 ∧ (s1.run 1).isSome = true := by
  have k : (match xruns (exRo false true) (fun t => t % 4) ⟨exSt, fun _ => ⟨0, false⟩, fun _ => none, fun _ => exSt⟩ exIsoOther.reverse, exIsoRun exIsoOther with
    | some (h1, s1), some (h2, _) => apartB (exRo false true) (fun t => t % 4) exIsoS exIsoT exIsoOther.reverse &&
        apartB (exRo false true) (fun t => t % 4) exIsoS exIsoT (exIso exIsoOther) &&
        decide ((returnedTo (fun t => !exIsoT t) h1).length = 1) && decide ((returned h1).length = 1) && decide ((returned h2).length = 5) && (s1.run 1).isSome
    | _, _ => false) = true := by decide +kernel
  have ho : ∀ t ch, .go t ch ∈ exIsoOther → ∃ a, ch = exAt a := by
    intro t ch hi
    simp only [exIsoOther, List.mem_cons, List.not_mem_nil, or_false, reduceCtorEq, false_or, Move.go.injEq] at hi
    rcases hi with hi | hi | hi | hi | hi | hi <;> exact ⟨_, hi.2⟩
  have hm : ∀ t ch, .go t ch ∈ exIso exIsoOther → ∀ c, CEnv true c ch := by
    intro t ch hi c
    have : ∃ a, ch = exAt a := by
      simp only [exIso, List.mem_reverse, List.mem_append, List.mem_cons, List.not_mem_nil, or_false, reduceCtorEq, false_or, Move.go.injEq] at hi
      rcases hi with (hi | hi) | hi
      · rcases hi with hi | hi | hi | hi <;> exact ⟨_, hi.2⟩
      · exact ho t ch hi
      · rcases hi with hi | hi | hi | hi | hi | hi | hi | hi | hi | hi <;> exact ⟨_, hi.2⟩
    obtain ⟨a, rfl⟩ := this
    exact exAt_cenv true a c
  cases e1 : xruns (exRo false true) (fun t => t % 4) ⟨exSt, fun _ => ⟨0, false⟩, fun _ => none, fun _ => exSt⟩ exIsoOther.reverse with
  | none => rw [e1] at k; cases k
  | some x1 =>
    cases e2 : exIsoRun exIsoOther with
    | none => rw [e1, e2] at k; cases k
    | some x2 =>
      obtain ⟨h1, s1⟩ := x1
      obtain ⟨h2, s2⟩ := x2
      rw [e1, e2] at k
      simp only [Bool.and_eq_true, decide_eq_true_eq] at k
      obtain ⟨⟨⟨⟨⟨k1, k2⟩, k3⟩, k4⟩, k5⟩, k6⟩ := k
      refine ⟨h1, s1, h2, s2, xruns_exec (fun t ch hi c => ?_) e1, xruns_exec hm e2, .init (exInit false true) (fun _ => rfl), apartB_apart k1, apartB_apart k2,
        apartB_info k1, apartB_info k2, rfl, k3, k4, k5, k6⟩
      obtain ⟨a, rfl⟩ := ho t ch (List.mem_reverse.mp hi)
      exact exAt_cenv true a c

end HM
