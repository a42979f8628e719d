import Verif.Props.Threads
import Verif.Props.Blocks
/-
C50. Memory that others than the allocator have mapped (the application with `mmap`, the loader, the kernel for the stacks
of threads) is not touched. `foreign h pg`, for interleaved calls `cforeign h pg`: according to the history `h`, page `pg`
was last mapped by someone else than the allocator and not released since. Others may map any page that is not mapped, and
change or release the pages that they have mapped, at any moment.

The theorems on interleaved calls are called partial because `CEnv` excludes that, during a call that asks for an alignment
above the page size, the kernel refuses to release the end of the mapping; `c50_foreign_unmapped` shows that the claim is false without this.
-/
namespace HM

theorem user_ours {ro : Ro} {w : World} (hro : RoOk ro) (hi : GInv ro w) {p x : Nat} (h : UserByte ro w p x) : Ours (w.G.own (x / PAGE)) := by
  rcases h.own hro hi with e | e <;> rw [e]
  exacts [Ours.slab, Ours.reg]

/-! ### Calls one after the other -/

section
variable {g : Cfg} {ro : Ro} {ar : Nat → Nat} {calm : Bool} {D : Client} {h : List Ev} {s : Sys}

/-- C50. A call that returns leaves the pages of others as they were: same protection, same contents. For every application. -/
theorem c50_call (hg : Good g ar) (r : Reach g ro ar calm D h s) {t : Nat} {c : Call} {chs : Nat → Choice} (hok : c.Ok)
    (he : ∀ n, Env calm (chs n)) {s' : Sys} {x : Ret} (hc : s.call ro ar t c chs = .ok (s', x)) {y : Nat}
    (hy : foreign h (y / 4096) = true) : s'.σ.vm.prot (y / 4096) = s.σ.vm.prot (y / 4096) ∧ s'.byte y = s.byte y := by
  obtain ⟨w, w', k, _⟩ := r.called hg hok he hc
  obtain ⟨h1, h2⟩ := k.pages _ hy
  exact ⟨h1, h2 y rfl⟩

/-- C50. From one moment to any later one: a page of others is as it was, unless they themselves change or release it, or the
application stores to it. -/
theorem c50_history (hg : Good g ar) {h0 evs : List Ev} {s0 : Sys} (r0 : Reach g ro ar calm D h0 s0) (st : Steps ro ar calm D h0 s0 evs s)
    {y : Nat} (hy : foreign h0 (y / 4096) = true) (hother : ∀ m, .foreign (y / 4096) m ∉ evs) (hstore : ∀ v, .store y v ∉ evs) :
    foreign (evs ++ h0) (y / 4096) = true ∧ s.σ.vm.prot (y / 4096) = s0.σ.vm.prot (y / 4096) ∧ s.byte y = s0.byte y := by
  induction st with
  | refl => exact ⟨hy, rfl, rfl⟩
  | @step evs s s' a e st ha hd hs ih =>
    obtain ⟨h1, h2, h3⟩ := ih (fun m k => hother m (List.mem_cons_of_mem _ k)) fun v k => hstore v (List.mem_cons_of_mem _ k)
    have r := st.reach r0
    cases a with
    | call t c chs =>
      simp only [Sys.step] at hs
      cases hc : s.call ro ar t c chs with
      | ok z =>
        obtain ⟨s'', x⟩ := z
        rw [hc] at hs
        cases hs
        obtain ⟨k1, k2⟩ := c50_call hg r ha.1 ha.2 hc h1
        exact ⟨h1, k1.trans h2, k2.trans h3⟩
      | fatal m => rw [hc] at hs; cases hs
      | segv => rw [hc] at hs; cases hs
      | ub m => rw [hc] at hs; cases hs
      | hang => rw [hc] at hs; cases hs
    | store z v =>
      simp only [Sys.step] at hs
      cases hs
      refine ⟨h1, ?_, ?_⟩
      · show (s.σ.vm.appStore z v).prot _ = _
        rw [appStore_prot]; exact h2
      · refine Eq.trans ?_ h3
        show (s.σ.vm.appStore z v).mem y = s.σ.vm.mem y
        by_contra hn
        obtain ⟨e, _⟩ := appStore_mem _ _ _ _ hn
        exact hstore v (by rw [e]; exact List.mem_cons_self)
    | errno t e =>
      cases hs
      exact ⟨h1, h2, h3⟩
  | @other evs s st pg pr data hq ih =>
    obtain ⟨h1, h2, h3⟩ := ih (fun m k => hother m (List.mem_cons_of_mem _ k)) fun v k => hstore v (List.mem_cons_of_mem _ k)
    have hne : y / 4096 ≠ pg := fun e => hother (pr != .unmapped) (by rw [e]; exact List.mem_cons_self)
    refine ⟨?_, ?_, ?_⟩
    · show (if y / 4096 = pg then _ else HM.foreign (evs ++ h0) (y / 4096)) = true
      rw [if_neg hne]; exact h1
    · show (if y / 4096 = pg then _ else s.σ.vm.prot (y / 4096)) = _
      rw [if_neg hne]; exact h2
    · show (if y / 4096 = pg then _ else s.σ.vm.mem y) = _
      rw [if_neg hne]; exact h3

/-- C50. No byte of a live block is in a page of others. (`c50_others_harmless`: what others do with their pages does not
change the live blocks.) -/
theorem c50_disjoint (hg : Good g ar) (r : Reach g ro ar calm D h s) {p u : Nat} (hp : (live h p).isSome) (hu : Usable ro s.σ p u)
    {y : Nat} (h1 : p ≤ y) (h2 : y < p + u) : foreign h (y / 4096) = false := by
  obtain ⟨hro, _⟩ := r.roOk hg
  obtain ⟨w, f, _⟩ := r.fits hg
  rw [← f.σ] at hu
  have hu := hu.is hro f.linked hp
  refine Bool.eq_false_iff.mpr fun hf => (f.others _ hf).1 ?_
  exact user_ours hro f.linked.inv (hu.byte hro f.linked h1 h2)

end

/-! ### Interleaved calls -/

section
variable {g : Cfg} {ro : Ro} {ar : Nat → Nat} {calm : Bool} {h : List CEv} {s : CSys}

/-- C50. No action of a call, of whichever thread, changes a page of others. -/
theorem c50_action_partial (hg : Good g ar) (r : CReach g ro ar calm h s) {t : Nat} {c : Call} {β : Type} {l : Option Sect} {f : Choice → St → Tl → Res (St × Tl × β)}
    {k : β → Prog Ret} (hc : s.run t = some (c, .act (l := l) f k)) {ch : Choice} (he : CEnv calm c ch) {σ' : St} {tl' : Tl} {b : β}
    (hf : f ch s.σ (s.tl t) = .ok (σ', tl', b)) {y : Nat} (hy : cforeign h (y / 4096) = true) :
    σ'.vm.prot (y / 4096) = s.σ.vm.prot (y / 4096) ∧ σ'.vm.mem y = s.σ.vm.mem y := by
  obtain ⟨w, _, I⟩ := r.inv hg
  obtain ⟨ch', hs, hch, _⟩ := I.settle hc he
  have h1 := (I.wp hc).2 ch' (I.env ▸ hs.fair)
  rw [hch, I.σ, hf] at h1
  obtain ⟨G', h2, _⟩ := h1
  have h3 := h2.same (.thr 0) (by simp) (by simp)
  have ho := I.others _ hy
  rw [← I.σ]
  exact ⟨h3.prot 0 rfl _ ho, h3.mem 0 rfl y ho⟩

/-- C50. At every moment, whatever the threads are doing, no byte of a block that the application may use is in a page of
others, and what others do with their pages, or with pages that are not mapped, does not change that block. -/
theorem c50_blocks_partial (hg : Good g ar) (r : CReach g ro ar calm h s) {p u : Nat} (hl : ((hold h).live p).isSome) (hu : Usable ro s.σ p u) :
    (∀ y, p ≤ y → y < p + u → cforeign h (y / 4096) = false) ∧
    ∀ pg pr data, cforeign h pg = true ∨ s.σ.vm.prot pg = .unmapped →
      Usable ro { s.σ with vm := s.σ.vm.foreign pg pr data } p u ∧
      ∀ y, p ≤ y → y < p + u → (s.σ.vm.foreign pg pr data).mem y = s.σ.vm.mem y ∧ (s.σ.vm.foreign pg pr data).prot (y / 4096) = .rw := by
  obtain ⟨hro, _⟩ := r.roOk hg
  obtain ⟨w, _, I⟩ := r.inv hg
  have hs := (I.usable_iff hro hl).mp hu
  have hb : ∀ y, p ≤ y → y < p + u → UserByte ro w p y := fun y h1 h2 => UsableIs.user' (I.eff hl) hs (by unfold inRange; omega)
  have hd : ∀ y, p ≤ y → y < p + u → cforeign h (y / 4096) = false := fun y h1 h2 => Bool.eq_false_iff.mpr fun hf => by
    have := user_ours hro I.inv (hb y h1 h2)
    exact this.2 0 (I.others _ hf)
  refine ⟨hd, fun pg pr data hq => ?_⟩
  have I' := (I.other hro hq pr data).1
  have hne : ∀ y, p ≤ y → y < p + u → y / 4096 ≠ pg := fun y h1 h2 e => by
    rcases hq with hq | hq
    · have := hd y h1 h2; rw [e, hq] at this; cases this
    · have := UserByte.rw hro I.inv (hb y h1 h2)
      rw [I.σ, show y / PAGE = pg from e, hq] at this; cases this
  refine ⟨(I'.usable_iff hro hl).mpr hs, fun y h1 h2 => ?_⟩
  refine ⟨if_neg (hne y h1 h2), ?_⟩
  show (if y / 4096 = pg then _ else s.σ.vm.prot (y / 4096)) = _
  rw [if_neg (hne y h1 h2), ← I.σ]
  exact UserByte.rw hro I.inv (hb y h1 h2)

end

/-! ### The hypotheses are met -/

/-- While thread 1 is in the middle of mapping a large block, others map a page and write to it; thread 0 has a block. -/
example : ∃ h s, CReach (exCfg false true) (exRo false true) (fun t => t % 4) false h s ∧ cforeign h 5 = true ∧ s.σ.vm.prot 5 = .rw ∧
    s.σ.vm.mem (5 * 4096 + 3) = 9#8 ∧ s.phase 1 = some none ∧ (hold h).live exA = some ⟨100, none⟩ ∧ Usable (exRo false true) s.σ exA 104 := by
  obtain ⟨h, s, h1, h2⟩ := ex_conc (stats := false) (sealed := true) (calm := false)
    [.inv 0 (.malloc 100) 0, .go 0 99 0, .other 5 .none 0#8, .inv 1 (.malloc 200000) 0, .go 1 2 exMapAt, .other 5 .rw 9#8, .ret 0]
    (fun h s => cforeign h 5 && decide (s.σ.vm.prot 5 = .rw) && decide (s.σ.vm.mem (5 * 4096 + 3) = 9#8) && decide (s.phase 1 = some none) &&
      decide ((hold h).live exA = some ⟨100, none⟩) && decide (usableB (exRo false true) s.σ exA = some 104)) (by decide +kernel)
  simp only [Bool.and_eq_true, decide_eq_true_eq] at h2
  obtain ⟨⟨⟨⟨⟨k1, k2⟩, k3⟩, k4⟩, k5⟩, k6⟩ := h2
  exact ⟨h, s, h1, k1, k2, k3, k4, k5, usableB_usable k6⟩

/-- Others map a page while the application has a block, which it then frees. -/
example : ∃ h s, Reach (exCfg false false) (exRo false false) (fun t => t % 4) false (goodClient (exRo false false)) h s ∧
    foreign h 5 = true ∧ s.byte (5 * 4096 + 3) = 9#8 ∧ live h exA = some ⟨100, none⟩ ∧ Usable (exRo false false) s.σ exA 104 ∧
    ∃ s' x, s.call (exRo false false) (fun t => t % 4) 0 (.free exA) (fun _ => exAt 0) = .ok (s', x) := by
  obtain ⟨h, s, h1, h2⟩ := ex_good (stats := false) (sealed := false) (calm := false) [.call 0 (.malloc 100) 0]
    (fun h s => decide (live h exA = some ⟨100, none⟩) && decide (usableB (exRo false false) s.σ exA = some 104) && decide (s.σ.vm.prot 5 = .unmapped) &&
      decide (usableB (exRo false false) { s.σ with vm := s.σ.vm.foreign 5 .rw fun _ => 9#8 } exA = some 104) &&
      (Sys.call (exRo false false) (fun t => t % 4) { s with σ := { s.σ with vm := s.σ.vm.foreign 5 .rw fun _ => 9#8 } } 0 (.free exA) fun _ => exAt 0).isOk) (by decide +kernel)
  simp only [Bool.and_eq_true, decide_eq_true_eq] at h2
  obtain ⟨⟨⟨⟨k1, k2⟩, k3⟩, k4⟩, k5⟩ := h2
  refine ⟨_, _, h1.other 5 .rw (fun _ => 9#8) (Or.inr k3), rfl, ?_, k1, usableB_usable k4, ?_⟩
  · show (if (5 * 4096 + 3) / 4096 = 5 then 9#8 else s.σ.vm.mem (5 * 4096 + 3)) = 9#8
    exact if_pos (by decide)
  · revert k5
    cases Sys.call (exRo false false) (fun t => t % 4) { s with σ := { s.σ with vm := s.σ.vm.foreign 5 .rw fun _ => 9#8 } } 0 (.free exA) fun _ => exAt 0 with
    | ok y => exact fun _ => ⟨y.1, y.2, rfl⟩
    | fatal m => intro e; cases e
    | segv => intro e; cases e
    | ub m => intro e; cases e
    | hang => intro e; cases e

/-- C50 is false without the restriction of `CEnv`: if the kernel refuses to release the end of the mapping for an
over-aligned block, `allocate_pages_aligned` releases the whole mapping, including its beginning, which it has already
released (pages.c:67-79). If the application has mapped memory of its own there in the meantime, it is lost. -/
theorem c50_foreign_unmapped : ∃ h s, CReach (exCfg false true) (exRo false true) (fun t => t % 4) false h s ∧
    ∃ pg, cforeign h pg = true ∧ s.σ.vm.prot pg = .rw ∧
    ∃ c P chs σ' tl' x, s.run 0 = some (c, P) ∧ (∀ n, Env false (chs n)) ∧ P.run chs s.σ (s.tl 0) = .ok (σ', tl', x) ∧
      σ'.vm.prot pg = .unmapped := by
  obtain ⟨h, s, h1, h2⟩ := ex_conc (stats := false) (sealed := true) (calm := false)
    [.inv 0 (.alignedAlloc 0x100000 200000) 0, .go 0 5 (exMapAt + 0x10000), .other 4294967313 .rw 7#8]
    (fun h s => cforeign h 4294967313 && decide (s.σ.vm.prot 4294967313 = .rw) &&
      (s.run 0).any fun y => match y.2.run (fun n => if n = 0 then { exAt 0 with trailUnmap := .enomem } else exAt 0) s.σ (s.tl 0) with
        | .ok (σ', _) => decide (σ'.vm.prot 4294967313 = .unmapped)
        | _ => false) (by decide +kernel)
  simp only [Bool.and_eq_true, decide_eq_true_eq, Option.any_eq_true] at h2
  obtain ⟨⟨k1, k3⟩, ⟨c, P⟩, k4, k5⟩ := h2
  refine ⟨h, s, h1, _, k1, k3, c, P, fun n => if n = 0 then { exAt 0 with trailUnmap := .enomem } else exAt 0, ?_⟩
  revert k5
  cases e : P.run (fun n => if n = 0 then { exAt 0 with trailUnmap := .enomem } else exAt 0) s.σ (s.tl 0) with
  | ok y =>
    obtain ⟨σ', tl', x⟩ := y
    refine fun k5 => ⟨σ', tl', x, k4, fun n => ?_, rfl, of_decide_eq_true k5⟩
    by_cases hn : n = 0
    · simp only [if_pos hn]; exact ⟨by simp [exAt, Choice.quiet], fun e => by cases e⟩
    · simp only [if_neg hn]; exact exAt_env false 0
  | fatal m => intro e; cases e
  | segv => intro e; cases e
  | ub m => intro e; cases e
  | hang => intro e; cases e

end HM
