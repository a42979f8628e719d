import Verif.Props.Detect
import Verif.Props.FreeSlot
import Verif.ConcLeak
/-
C59, second part: what was written to memory after it was freed is noticed when the memory is handed out again, while the calls
of several threads are interleaved. As in Detect.lean.
-/
namespace HM

variable {g : Cfg} {ro : Ro} {ar : Nat → Nat} {calm : Bool} {h : List CEv} {s : CSys}

/-! ### One allocation -/

theorem takeSlot_lt {slots m k : Nat} {ch : Choice} {c c' : SC} (h1 : 1 ≤ slots) (e : takeSlot g slots ch c m = .ok (k, c')) : k < slots := by
  unfold takeSlot at e
  split at e
  · split at e <;> cases e
  · rename_i e1
    cases e
    exact (c33_sound _ _ _ _ _ h1 (u16Uniform_lt _ h1) e1).1

theorem prepareSlot_checked {reqSize size p : Nat} {κ : BitVec 64} {vm vm' : Vm} (hw : g.writeAfterFreeCheck = true) (h0 : reqSize ≠ 0) (h8 : (size - g.canarySize) % 8 = 0)
    (e : prepareSlot g false true reqSize size p κ vm = .ok vm') {x : Nat} (hx : inRange p (size - g.canarySize) x) : vm.mem x = 0#8 := by
  unfold prepareSlot at e
  rw [if_neg h0] at e
  obtain ⟨⟨⟩, e, _⟩ := Res.of_bind e
  unfold writeAfterFreeCheck at e
  rw [hw] at e
  simp only [Bool.not_true, Bool.or_false, Bool.false_eq_true, if_false] at e
  split at e
  · cases e
  · split at e
    · rename_i hd
      obtain ⟨i, j, hi, hj, rfl⟩ := inRange_words h8 hx
      have := of_decide_eq_true hd i hi
      exact of_decide_eq_true this j hj
    · cases e

/-- The bytes of a slot that `allocate_small` hands out were zero before, or could not have been written to. -/
theorem allocateSmall_unwritten {base cls n q : Nat} {ch : Choice} {c c' : SC} {vm vm0 vm' : Vm} {en en' : Errno} {P E F : List Nat} {loc : Nat → Loc} {ql : Nat → Nat → QLoc}
    (hv : g.Valid) (hcls : cls < nClasses g) (hreq : n = 0 ↔ g.classSize cls = 0) (h : SCInv g base cls c P E F loc ql) (hvm : SCVm g base cls loc vm0)
    (hprot : vm.prot = vm0.prot) (htag : tagging g ch = false) (hw : g.writeAfterFreeCheck = true)
    (e : allocateSmall g base cls n ch c vm en = .ok (some q, c', vm', en')) :
    ∃ i k, i < g.metaMax cls ∧ k < g.slots cls ∧ q = slotAddr g base cls i k ∧
      (g.classSize cls ≠ 0 → ∀ x, inRange q (g.slotSize cls - g.canarySize) x → vm.mem x = 0#8 ∨ vm.prot (x / PAGE) ≠ .rw) := by
  have G := classGeo g hcls
  have hs1 : 1 ≤ g.slots cls := G.slots_pos
  have h8 : (g.slotSize cls - g.canarySize) % 8 = 0 := by
    have := G.size_mod
    unfold Cfg.canarySize
    split <;> omega
  have hoff : ∀ i k, i < g.metaMax cls → k < g.slots cls → (loc i).isRw = false → ∀ x, inRange (slotAddr g base cls i k) (g.slotSize cls - g.canarySize) x → vm.prot (x / PAGE) ≠ .rw := by
    intro i k hi hk hl x hx
    have := (hvm.off i x hi (by rw [hl]; simp) (slot_range_slab hcls hk (by unfold inRange at *; omega))).1
    rw [hprot, this]; simp
  unfold allocateSmall at e
  split at e
  · rename_i m hm
    unfold allocFromPartial at e
    obtain ⟨⟨k, c1⟩, e1, e⟩ := Res.of_bind e
    obtain ⟨vm1, e2, e⟩ := Res.of_bind e
    cases e
    have hl : loc m = .part := (h.lists.pm m).mp (by have := h.lists.ph; rw [hm] at this; exact List.mem_of_mem_head? this.symm)
    rw [htag] at e2
    exact ⟨m, k, (h.lt_max (by rw [hl]; simp)).2, takeSlot_lt hs1 e1, rfl, fun hz x hx => .inl (prepareSlot_checked hw (fun e => hz (hreq.mp e)) h8 e2 hx)⟩
  split at e
  · rename_i m hm
    unfold allocFromEmpty at e
    obtain ⟨⟨k, c1⟩, e1, e⟩ := Res.of_bind e
    obtain ⟨vm1, e2, e⟩ := Res.of_bind e
    cases e
    have hl : loc m = .empty := (h.lists.em m).mp (by have := h.lists.eh; rw [hm] at this; exact List.mem_of_mem_head? this.symm)
    rw [htag] at e2
    exact ⟨m, k, (h.lt_max (by rw [hl]; simp)).2, takeSlot_lt hs1 e1, rfl, fun hz x hx => .inl (prepareSlot_checked hw (fun e => hz (hreq.mp e)) h8 e2 hx)⟩
  split at e
  · rename_i m hm
    unfold allocFromFree at e
    obtain ⟨⟨vm2, fl⟩, e0, e⟩ := Res.of_bind e
    dsimp only at e
    split at e
    · cases e
    obtain ⟨⟨k, c1⟩, e1, e⟩ := Res.of_bind e
    obtain ⟨vm1, e2, e⟩ := Res.of_bind e
    cases e
    have hl : loc m = .free := (h.lists.fm m).mp (by have := h.lists.fh; rw [hm] at this; exact List.mem_of_mem_head? this.symm)
    have hi : m < g.metaMax cls := (h.lt_max (by rw [hl]; simp)).2
    have hk := takeSlot_lt hs1 e1
    exact ⟨m, k, hi, hk, rfl, fun hz x hx => .inr (hoff m k hi hk (by rw [hl]; rfl) x hx)⟩
  · unfold allocFromNew at e
    obtain ⟨⟨mo, c2, vm2, en2⟩, e0, e⟩ := Res.of_bind e
    unfold allocMetadata at e0
    obtain ⟨o, e3, e0⟩ := Res.of_bind e0
    have hgr := growMetadata_spec (ch := ch) hv hcls h.bits
    rw [e3] at hgr
    cases o with
    | none => cases e0; cases e
    | some c3 =>
      obtain ⟨A, rfl, hA, hb⟩ := hgr
      dsimp only at e0
      obtain ⟨⟨vm3, fl⟩, e4, e0⟩ := Res.of_bind e0
      dsimp only at e0
      split at e0
      · cases e0; cases e
      cases e0
      dsimp only at e
      obtain ⟨⟨k, c1⟩, e1, e⟩ := Res.of_bind e
      obtain ⟨vm1, e2, e⟩ := Res.of_bind e
      cases e
      have hl : loc c.metaCount = .fresh := (bumpMetadata_bits hb hA).2
      have hi : c.metaCount < g.metaMax cls := by have := hb.mle; dsimp only at this; omega
      have hk := takeSlot_lt hs1 e1
      exact ⟨_, k, hi, hk, rfl, fun hz x hx => .inr (hoff _ k hi hk (by rw [hl]; rfl) x hx)⟩

/-! ### Programs -/

/-- Run from states that satisfy `J`, so that those after its actions satisfy `J'`, the program returns only what satisfies `Q`. -/
def Prog.Only (J J' : St → Prop) {α : Type} (Q : α → Prop) : Prog α → Prop
  | .ret a => Q a
  | .act f k => ∀ ch σ tl σ' tl' b, ch.growRemap ≠ .enomem → J σ → J' σ' → f ch σ tl = .ok (σ', tl', b) → (k b).Only J J' Q

theorem Prog.Only.bind {J J' : St → Prop} {α β : Type} {Q : α → Prop} {R : β → Prop} {P : Prog α} {K : α → Prog β} (h : P.Only J J' Q) (hk : ∀ a, Q a → (K a).Only J J' R) :
    (P.bind K).Only J J' R := by
  induction P with
  | ret a => exact hk a h
  | act f k ih => exact fun ch σ tl σ' tl' b h1 h2 h3 h4 => ih b (h ch σ tl σ' tl' b h1 h2 h3 h4)

theorem Prog.Only.mono {J J' : St → Prop} {α : Type} {Q R : α → Prop} {P : Prog α} (h : P.Only J J' Q) (hk : ∀ a, Q a → R a) : P.Only J J' R := by
  induction P with
  | ret a => exact hk a h
  | act f k ih => exact fun ch σ tl σ' tl' b h1 h2 h3 h4 => ih b (h ch σ tl σ' tl' b h1 h2 h3 h4)

theorem Prog.Only.any {J J' : St → Prop} {α : Type} (P : Prog α) : P.Only J J' fun _ => True := by
  induction P with
  | ret => trivial
  | act f k ih => exact fun ch σ tl σ' tl' b _ _ _ _ => ih b

theorem Prog.Only.skip {J J' : St → Prop} {α β : Type} {R : β → Prop} {P : Prog α} {K : α → Prog β} (hk : ∀ a, (K a).Only J J' R) : (P.bind K).Only J J' R :=
  (Prog.Only.any P).bind fun a _ => hk a

theorem Prog.Only.critical {J J' : St → Prop} {β : Type} {Q : β → Prop} {S : Sect} {f : Choice → St → Errno → Res (St × Errno × β)}
    (h : ∀ ch σ e σ' e' b, ch.growRemap ≠ .enomem → J σ → J' σ' → f ch σ e = .ok (σ', e', b) → Q b) : (HM.critical ro S f).Only J J' Q := by
  intro ch σ tl σ' tl' b h1 h2 h3 e
  dsimp only at e
  split at e
  · cases e
  · split at e
    · rename_i e1
      cases e
      exact h _ _ _ _ _ _ h1 h2 h3 e1
    all_goals cases e

/-- The bookkeeping and the protections are those of a consistent state. -/
def Sane (ro : Ro) (σ : St) : Prop := ∃ w, GInv ro w ∧ σ.sc = w.σ.sc ∧ σ.rt = w.σ.rt ∧ σ.vm.prot = w.σ.vm.prot

/-- The byte at `x` can be written to and is not zero. -/
def Written (x : Nat) (σ : St) : Prop := σ.vm.prot (x / PAGE) = .rw ∧ σ.vm.mem x ≠ 0#8

/-- The block at `q` is no small block whose usable part contains `x`. -/
def Elsewhere (ro : Ro) (x q : Nat) : Prop := ro.inSlab q = true → 
  ro.g.classSize (ro.sizeClassOf q).2 ≠ 0 → ¬ inRange q (ro.g.slotSize (ro.sizeClassOf q).2 - ro.g.canarySize) x

abbrev Prog.Finds (ro : Ro) (x : Nat) {α : Type} (P : Prog α) (Q : α → Prop) : Prop := P.Only (fun σ => Sane ro σ ∧ Written x σ) (Sane ro) Q

theorem smallAlloc_finds (hro : RoOk ro) (hm : ro.g.mte = false) (hw : ro.g.writeAfterFreeCheck = true) {arena n x : Nat} (hn : n ≤ ro.g.maxSlab) :
    (smallAlloc ro arena n).Finds ro x fun o => ∀ q, o = some q → Elsewhere ro x q := by
  refine Prog.Only.critical fun ch σ en σ' en' o _ hJ _ e => ?_
  obtain ⟨⟨w, hi, esc, _, ep⟩, hx1, hx2⟩ := hJ
  rintro q rfl _ hz hx
  dsimp only at e
  split at e
  · cases e
  rename_i hlt
  have hc : (getSizeInfo n).cls < nClasses ro.g := by omega
  have ha : arena < ro.g.nArena := by omega
  cases e1 : allocateSmall ro.g (ro.regionStart arena (getSizeInfo n).cls) (getSizeInfo n).cls n ch (σ.sc arena (getSizeInfo n).cls) σ.vm en with
  | ok y =>
    obtain ⟨o, c', vm', en2⟩ := y
    rw [e1] at e
    cases e
    obtain ⟨P, E, F, hc1⟩ := hi.cls arena _ ha hc
    rw [esc] at e1
    obtain ⟨i, k, k1, k2, rfl, k3⟩ := allocateSmall_unwritten hro.valid hc (clsOf_zero hn) hc1 (hi.clsVm arena _ ha hc) ep (tagging_off hro hm ch) hw e1
    have ecl := hro.sizeClassOf ha hc (hro.region_cell ha hc (slot_in_region hro ha hc k1 k2 (x := slotAddr ro.g (ro.regionStart arena (getSizeInfo n).cls) (getSizeInfo n).cls i k)
      (by have := (classGeo ro.g hc).size_ge; unfold inRange; omega)))
    rw [ecl] at hx hz
    rcases k3 hz x hx with k3 | k3
    · exact hx2 k3
    · exact k3 hx1
  | _ => rw [e1] at e; cases e

theorem insertRegion_finds (hro : RoOk ro) {p n gd x : Nat} {st : Bool} : (insertRegion ro p n gd st).Finds ro x fun b => b = true → ro.inSlab p = false := by
  refine Prog.Only.critical fun ch σ en σ' en' o hr hJ hS e => ?_
  obtain ⟨⟨w, hi, _, ert, _⟩, _⟩ := hJ
  obtain ⟨w', hi', _, ert', _⟩ := hS
  rintro rfl
  by_cases hp : p = 0
  · subst hp
    unfold Ro.inSlab
    have := hro.lo
    simp; omega
  split at e
  · cases e
  rename_i hgr
  have er : regionsInsert hashPage ro.g.maxRegionTable (decide (ch.sys 0 = .ok)) (decide (ch.growRemap = .ok)) σ.rt ⟨p, n, gd⟩ =
      regionsInsert hashPage ro.g.maxRegionTable (decide (ch.sys 0 = .ok)) true σ.rt ⟨p, n, gd⟩ := by
    by_cases hc : σ.rt.free * 4 < σ.rt.total
    · have : ch.growRemap = .ok := by
        cases hh : ch.growRemap with
        | ok => rfl
        | enomem => exact absurd hh hr
        | other => exact absurd ⟨hc, .inr hh⟩ hgr
      rw [this]; rfl
    · unfold regionsInsert
      rw [if_neg hc, if_neg hc]
  rw [er] at e
  split at e
  · rename_i rt e1
    cases e
    rw [ert] at e1
    have h2 := (regionsInsert_has (r := ⟨p, n, gd⟩) hi.rt hp e1 (by rw [show rt = w'.σ.rt from ert']; exact hi'.rt)).1 ⟨p, n, gd⟩
    exact has_not_inSlab hro hi' (show w'.σ.rt.Has _ by rw [← ert']; exact h2.mpr (.inr rfl))
  all_goals cases e

theorem finishLarge_finds (hro : RoOk ro) {n gd x : Nat} {st : Bool} (o : Option Nat) :
    (finishLarge ro n gd st o).Finds ro x fun o => ∀ q, o = some q → Elsewhere ro x q := by
  unfold finishLarge
  cases o with
  | none => intro q e; cases e
  | some p =>
    refine Prog.Only.bind (insertRegion_finds hro) fun b hb => ?_
    cases b with
    | true =>
      intro q e hq
      cases e
      rw [hb rfl] at hq; cases hq
    | false => exact Prog.Only.skip fun _ => by intro q e; cases e

theorem allocateLarge_finds (hro : RoOk ro) {n x : Nat} : (allocateLarge ro n).Finds ro x fun o => ∀ q, o = some q → Elsewhere ro x q := by
  unfold allocateLarge
  dsimp only
  split
  · exact Prog.Only.skip fun _ => by intro q e; cases e
  · exact Prog.Only.skip fun _ => Prog.Only.skip fun o => finishLarge_finds hro o

theorem allocate_finds (hro : RoOk ro) (hm : ro.g.mte = false) (hw : ro.g.writeAfterFreeCheck = true) {arena n x : Nat} :
    (allocate ro arena n).Finds ro x fun o => ∀ q, o = some q → Elsewhere ro x q := by
  unfold allocate
  split
  · rename_i hn; exact smallAlloc_finds hro hm hw hn
  · exact allocateLarge_finds hro

theorem alloc_finds (hro : RoOk ro) (hm : ro.g.mte = false) (hw : ro.g.writeAfterFreeCheck = true) {arena n x : Nat} :
    (alloc ro arena n).Finds ro x fun o => ∀ q, o = some q → Elsewhere ro x q :=
  Prog.Only.skip fun _ => Prog.Only.bind (allocate_finds hro hm hw) fun _ h => Prog.Only.skip fun _ => h

theorem allocateAligned_finds (hro : RoOk ro) (hm : ro.g.mte = false) (hw : ro.g.writeAfterFreeCheck = true) {arena al n mn x : Nat} :
    (allocateAligned ro arena al n mn).Finds ro x fun o => ∀ q, o = .ok q → Elsewhere ro x q := by
  have fin : ∀ o : Option Nat, (∀ q, o = some q → Elsewhere ro x q) →
      (match o with | none => (Prog.ret (.error ENOMEM) : Prog (Except Errno Nat)) | some p => .ret (.ok p)).Finds ro x fun o => ∀ q, o = (.ok q : Except Errno Nat) → Elsewhere ro x q := by
    intro o h
    cases o with
    | none => intro q e; cases e
    | some p => intro q e; cases e; exact h _ rfl
  unfold allocateAligned
  split
  · intro q e; cases e
  split
  · split
    · split
      · intro ch σ tl σ' tl' b; exact nomatch b
      · exact Prog.Only.bind (allocate_finds hro hm hw) fin
    · exact Prog.Only.bind (allocate_finds hro hm hw) fin
  · refine Prog.Only.bind ?_ fin
    unfold allocateOverAligned
    dsimp only
    split
    · intro q e; cases e
    · exact Prog.Only.skip fun _ => Prog.Only.skip fun o => finishLarge_finds hro o

theorem allocAligned_finds (hro : RoOk ro) (hm : ro.g.mte = false) (hw : ro.g.writeAfterFreeCheck = true) {arena al n mn x : Nat} :
    (allocAligned ro arena al n mn).Finds ro x fun o => ∀ q, o = .ok q → Elsewhere ro x q :=
  Prog.Only.skip fun _ => Prog.Only.bind (allocateAligned_finds hro hm hw) fun _ h => Prog.Only.skip fun _ => h

theorem allocAlignedSimple_finds (hro : RoOk ro) (hm : ro.g.mte = false) (hw : ro.g.writeAfterFreeCheck = true) {arena al n x : Nat} :
    (allocAlignedSimple ro arena al n).Finds ro x fun o => ∀ q, o = some q → Elsewhere ro x q := by
  refine Prog.Only.bind (allocAligned_finds hro hm hw) fun o h => ?_
  cases o with
  | error e => exact Prog.Only.skip fun _ => by intro q e; cases e
  | ok p => intro q e; cases e; exact h _ rfl

theorem reallocCopy_finds (hro : RoOk ro) (hm : ro.g.mte = false) (hw : ro.g.writeAfterFreeCheck = true) {arena old oldSize n x : Nat} :
    (reallocCopy ro arena old oldSize n).Finds ro x fun o => ∀ q, o = some q → Elsewhere ro x q := by
  refine Prog.Only.bind (allocate_finds hro hm hw) fun o h => ?_
  cases o with
  | none => exact Prog.Only.skip fun _ => h
  | some new =>
    refine Prog.Only.skip fun _ => ?_
    dsimp only
    split <;> exact Prog.Only.skip fun _ => Prog.Only.skip fun _ => h

theorem reallocSized_finds (hro : RoOk ro) (hm : ro.g.mte = false) (hw : ro.g.writeAfterFreeCheck = true) {arena old n x : Nat} :
    (reallocSized ro arena old n).Finds ro x fun o => ∀ q, o = some q → q = old ∨ Elsewhere ro x q := by
  have h0 : ∀ q, some old = some q → q = old ∨ Elsewhere ro x q := fun q e => by cases e; exact .inl rfl
  have hc : ∀ sz, (reallocCopy ro arena old sz n).Finds ro x fun o => ∀ q, o = some q → q = old ∨ Elsewhere ro x q := fun sz =>
    (reallocCopy_finds hro hm hw).mono fun _ h q e => .inr (h q e)
  unfold reallocSized
  split
  · dsimp only
    split
    · exact h0
    · exact Prog.Only.skip fun _ => hc _
  · unfold reallocLarge
    refine Prog.Only.skip fun _ => Prog.Only.skip fun r => ?_
    obtain ⟨oldSize, guard⟩ := r
    dsimp only
    split
    · exact Prog.Only.skip fun _ => h0
    split
    · unfold reallocShrink
      refine Prog.Only.skip fun b => ?_
      cases b with
      | true => exact Prog.Only.skip fun _ => by intro q e; cases e
      | false => exact Prog.Only.skip fun _ => Prog.Only.skip fun _ => Prog.Only.skip fun _ => h0
    split
    · unfold reallocMove
      refine Prog.Only.bind (allocateLarge_finds hro) fun o h => ?_
      cases o with
      | none => exact Prog.Only.skip fun _ => by intro q e; cases e
      | some new =>
        have h2 : ∀ q, some new = some q → q = old ∨ Elsewhere ro x q := fun q e => .inr (h q e)
        refine Prog.Only.skip fun _ => Prog.Only.skip fun b => ?_
        cases b with
        | true => exact Prog.Only.skip fun _ => Prog.Only.skip fun _ => Prog.Only.skip fun _ => h2
        | false => exact Prog.Only.skip fun _ => Prog.Only.skip fun _ => Prog.Only.skip fun _ => h2
    · exact hc _

theorem hRealloc_finds (hro : RoOk ro) (hm : ro.g.mte = false) (hw : ro.g.writeAfterFreeCheck = true) {arena old n x : Nat} :
    (hRealloc ro arena old n).Finds ro x fun o => ∀ q, o = some q → q = old ∨ Elsewhere ro x q := by
  unfold hRealloc
  dsimp only
  split
  · exact (alloc_finds hro hm hw).mono fun _ h q e => .inr (h q e)
  split
  · split
    · exact Prog.Only.skip fun _ => by intro q e; cases e
    · exact reallocSized_finds hro hm hw
  · exact reallocSized_finds hro hm hw

/-- What a call that allocates returns. -/
theorem Call.finds (hro : RoOk ro) (hm : ro.g.mte = false) (hw : ro.g.writeAfterFreeCheck = true) {c : Call} (hc : c.request.isSome = true ∨ ∃ p n, c = .realloc p n) (arena x : Nat) :
    (c.prog ro arena).Finds ro x fun r => ∀ q, r.block = some q → (∃ n, c = .realloc q n) ∨ Elsewhere ro x q := by
  have fin : ∀ o : Option Nat, (∀ q, o = some q → Elsewhere ro x q) → (Prog.ret (retPtr o)).Finds ro x fun r => ∀ q, r.block = some q → (∃ n, c = .realloc q n) ∨ Elsewhere ro x q := by
    intro o h q e
    cases o with
    | none => cases e
    | some p =>
      change (if p = 0 then none else some p) = some q at e
      split at e
      · cases e
      · cases e; exact .inr (h _ rfl)
  cases c with
  | malloc n => exact Prog.Only.bind (alloc_finds hro hm hw) fin
  | calloc n k =>
    refine Prog.Only.bind ?_ fin
    unfold hCalloc
    split
    · exact Prog.Only.skip fun _ => by intro q e; cases e
    · refine Prog.Only.bind (alloc_finds hro hm hw) fun o h => ?_
      cases o with
      | none => intro q e; cases e
      | some p =>
        dsimp only
        split
        · exact Prog.Only.skip fun _ => h
        · exact h
  | posixMemalign al n =>
    refine Prog.Only.bind (allocAligned_finds hro hm hw) fun o h => ?_
    cases o with
    | error e => intro q e; cases e
    | ok p => intro q e; cases e; exact .inr (h _ rfl)
  | alignedAlloc al n => exact Prog.Only.bind (allocAlignedSimple_finds hro hm hw) fin
  | valloc n => exact Prog.Only.bind (allocAlignedSimple_finds hro hm hw) fin
  | pvalloc n =>
    refine Prog.Only.bind ?_ fin
    unfold hPvalloc
    split
    · exact Prog.Only.skip fun _ => by intro q e; cases e
    · exact allocAlignedSimple_finds hro hm hw
  | realloc p n =>
    refine Prog.Only.bind (hRealloc_finds hro hm hw) fun o h q e => ?_
    cases o with
    | none => cases e
    | some q' =>
      change (if q' = 0 then none else some q') = some q at e
      split at e
      · cases e
      · cases e
        rcases h _ rfl with h | h
        · exact .inl ⟨n, by rw [h]⟩
        · exact .inr h
  | _ => rcases hc with hc | ⟨p, n, hc⟩ <;> cases hc

/-! ### Executions -/

theorem WReach.sane (hg : Good g ar) (r : WReach g ro ar calm h s) : Sane ro s.σ := by
  obtain ⟨⟨s', r', S⟩, _⟩ := r.shadow hg
  obtain ⟨w, n, I⟩ := r'.inv hg
  refine ⟨w, I.inv, ?_, ?_, ?_⟩
  · rw [I.σ, S.sc]
  · rw [I.σ, S.σ]
  · rw [I.σ, S.prot]

/-- C59 (C08). Memory that was written to after it was freed is not handed out. Thread `t` calls an allocation function, and until
it is about to return the byte at `x`, in writable memory, is not zero in any state. Then the call does not return a small block
whose usable bytes include `x`, whatever the other threads do meanwhile (except that `realloc` may leave the block where it is). -/
theorem c59_write_after_free_partial (hg : Good g ar) {h0 h2 : List CEv} {s0 s1 s2 s3 : CSys} {t b x q u : Nat} {c : Call} {y : Ret} (hw : g.writeAfterFreeCheck = true) (hmte : g.mte = false)
    (hc : c.request.isSome = true ∨ ∃ p n, c = .realloc p n ∧ p ≠ q) (r0 : WReach g ro ar calm h0 s0) (inv : WStep ro ar calm h0 s0 (.inv t c b :: h0) s1)
    (st : WSteps ro ar calm (fun _ s => s.σ.vm.prot (x / 4096) = .rw ∧ s.σ.vm.mem x ≠ 0) (.inv t c b :: h0) s1 h2 s2)
    (ret : WStep ro ar calm h2 s2 (.ret t c y :: h2) s3) (hq : y.block = some q) (hq1 : ro.slabStart ≤ q) (hq2 : q < ro.slabEnd) (hu : Usable ro s3.σ q u) :
    ¬ (q ≤ x ∧ x < q + u) := by
  obtain ⟨⟨_, r0', _⟩, _⟩ := r0.shadow hg
  obtain ⟨hro, rfl⟩ := r0'.roOk hg
  have r1 := r0.next inv
  -- the program of any allocation call of the thread finds the byte
  have key : WReach ro.g ro ar calm h2 s2 ∧ ∀ c P, s2.run t = some (c, P) → (c.request.isSome = true ∨ ∃ p n, c = .realloc p n) →
      P.Finds ro x fun r => ∀ q, r.block = some q → (∃ n, c = .realloc q n) ∨ Elsewhere ro x q := by
    clear ret
    induction st with
    | refl =>
      refine ⟨r1, fun c' P e hc' => ?_⟩
      cases inv with
      | invoke t c b hi hok hl =>
        change upd s0.run t _ t = _ at e
        rw [upd, if_pos rfl] at e
        cases e
        exact Call.finds hro hmte hw hc' _ _
    | @tail hh h' ss s' rs hI st ih =>
      obtain ⟨r, ih⟩ := ih
      refine ⟨r.next st, fun c' P e hc' => ?_⟩
      have hS' := (r.next st).sane hg
      have hS := r.sane hg
      cases st with
      | invoke t' c2 b' hi hok hl =>
        change upd ss.run t' _ t = _ at e
        unfold upd at e
        split at e
        · cases e; exact Call.finds hro hmte hw hc' _ _
        · exact ih _ _ e hc'
      | step t' hc2 he hf =>
        change upd ss.run t' _ t = _ at e
        unfold upd at e
        split at e
        · rename_i et
          subst et
          cases e
          exact ih _ _ hc2 hc' _ _ _ _ _ _ he.1.1 ⟨hS, hI⟩ hS' hf
        · exact ih _ _ e hc'
      | ret t' hc2 =>
        change upd ss.run t' _ t = _ at e
        unfold upd at e
        split at e
        · cases e
        · exact ih _ _ e hc'
      | store => exact ih _ _ e hc'
      | errno => exact ih _ _ e hc'
      | fork => cases e
      | other => exact ih _ _ e hc'
  obtain ⟨r2, key⟩ := key
  rintro ⟨hx1, hx2⟩
  have hin : ro.inSlab q = true := by unfold Ro.inSlab; simp [hq1, hq2]
  have r3 := r2.next ret
  obtain ⟨⟨s3', r3', S3⟩, _⟩ := r3.shadow hg
  obtain ⟨w, n, I⟩ := r3'.inv hg
  have hl : ((hold (.ret t c y :: h2)).live q).isSome = true := by
    have : ∃ i, c.gives ((hold h2).hand t) y = some (q, i) := by
      rcases hc with hc | ⟨p, n, rfl, _⟩
      · obtain ⟨i, hi⟩ := Option.isSome_iff_exists.mp hc
        refine ⟨i, ?_⟩
        cases c <;> first | cases hi; done | (simp only [Call.gives, hi, hq])
      · simp only [Call.gives, hq]
        exact ⟨_, rfl⟩
    obtain ⟨i, this⟩ := this
    show (match c.gives ((hold h2).hand t) y with | some (q', i) => if q = q' then some i else (hold h2).live q | none => (hold h2).live q).isSome = true
    rw [this]
    simp
  replace hl : ((hold (dropStores (.ret t c y :: h2))).live q).isSome = true := by rw [hold_dropStores]; exact hl
  obtain ⟨inf, hinf⟩ := Option.isSome_iff_exists.mp hl
  have hu' := (I.usable_iff hro hl).mp (S3.usable hg r3' hinf hu)
  obtain ⟨a, cl, i, k, hs, hus, _⟩ := hu'.small hro I.inv hq1 hq2
  obtain ⟨hz, rfl⟩ := hus (by omega)
  have hE : Elsewhere ro x q := by
    cases ret with
    | ret t hc2 =>
      rcases key _ _ hc2 (hc.imp id fun ⟨p, n, e, _⟩ => ⟨p, n, e⟩) q hq with ⟨n, e⟩ | h
      · rcases hc with hc | ⟨p, n', e', hne⟩
        · rw [e] at hc; cases hc
        · rw [e] at e'; cases e'; exact absurd rfl hne
      · exact h
  have ec := hs.cls hro I.inv
  refine hE hin ?_ ?_
  · rw [ec]; exact hz
  · rw [ec]; exact ⟨hx1, hx2⟩

/-- Without the quarantine: thread 0 frees a block and writes to it, while thread 1 maps a large block and thread 4 is in the middle
of `calloc`. The next allocation of thread 0 finds that and ends the process. -/
def exAfterFree : List ExC :=
  [.inv 0 (.malloc 100) 0, .inv 4 (.calloc 300 10) 0, .go 0 2 0, .go 4 2 0, .inv 1 (.malloc 200000) 0, .go 1 2 exMapAt, .go 0 9 0, .ret 0,
    .inv 0 (.malloc 100) 0, .go 0 99 0, .ret 0, .inv 0 (.free exA) exA, .go 0 99 0, .ret 0, .store (exA + 50) 7#8 0, .inv 0 (.malloc 100) 0, .go 0 1 0]

example : ∃ h s, WReach (exCfg false true false) (exRo false true false) (fun t => t % 4) false h s ∧ (∃ P, s.run 0 = some (.malloc 100, P)) ∧
    s.σ.vm.prot ((exA + 50) / 4096) = .rw ∧ s.σ.vm.mem (exA + 50) ≠ 0 ∧ s.aborts 0 (exAt 0) = some "detected write after free" := by
  have e : ((runW (exRo false true false) (fun t => t % 4) exAfterFree [] ⟨exSt, fun _ => ⟨0, false⟩, fun _ => none, fun _ => exSt⟩).any fun x =>
      decide (x.2.σ.vm.prot ((exA + 50) / 4096) = .rw) && decide (x.2.σ.vm.mem (exA + 50) ≠ 0) && decide (x.2.aborts 0 (exAt 0) = some "detected write after free")
      && (x.2.run 0).any fun x => match x.1 with | .malloc n => n == 100 | _ => false) = true := by decide +kernel
  rw [Option.any_eq_true] at e
  obtain ⟨⟨h, s⟩, h1, h2⟩ := e
  simp only [Bool.and_eq_true, decide_eq_true_eq, Option.any_eq_true] at h2
  obtain ⟨⟨⟨k1, k2⟩, k3⟩, ⟨c, P⟩, k4, k5⟩ := h2
  refine ⟨h, s, runW_reach (.init (exInit false true false) fun _ => rfl) h1, ⟨P, ?_⟩, k1, k2, k3⟩
  rw [k4]
  cases c <;> simp at k5
  rw [k5]

/-! An execution of single steps, with a condition that holds before each of them. -/

theorem ExC.runW_step {a : ExC} {h' : List CEv} {s' : CSys} (ha : ∀ t n x, a = .go t n x → n = 1 ∧ ∃ c P, s.run t = some (c, P) ∧ ∀ y, P ≠ .ret y) (e : a.runW ro ar h s = some (h', s')) : WStep ro ar calm h s h' s' := by
  cases a with
  | inv t c b =>
    simp only [ExC.runW] at e
    split at e
    · rename_i k
      simp only [Bool.and_eq_true, Option.isNone_iff_eq_none] at k
      cases e
      exact .invoke t c b k.1.1 (Call.okB_ok k.1.2) (wlendsB_lends k.2)
    · cases e
  | go t n a =>
    obtain ⟨rfl, c, P, hP, hne⟩ := ha _ _ _ rfl
    obtain ⟨s1, h1, h2⟩ := Option.map_eq_some_iff.mp e
    cases h2
    unfold CSys.acts at h1
    rw [hP] at h1
    cases P with
    | ret y => exact absurd rfl (hne y)
    | act f k =>
      obtain ⟨s2, h2, h3⟩ := Option.bind_eq_some_iff.mp h1
      cases h3
      unfold CSys.act at h2
      rw [hP] at h2
      simp only at h2
      cases hf : f (exAt a) s.σ (s.tl t) with
      | ok y =>
        obtain ⟨σ', tl', b⟩ := y
        rw [hf] at h2
        cases h2
        exact .step t hP (exAt_cenv calm a _) hf
      | _ => rw [hf] at h2; cases h2
  | ret t =>
    simp only [ExC.runW, ExC.run] at e
    split at e
    · rename_i c x k
      cases e
      exact .ret t k
    · cases e
  | store x v p => cases e; exact .store x v
  | fork t =>
    simp only [ExC.runW, ExC.run] at e
    split at e
    · rename_i k
      rw [Option.isNone_iff_eq_none] at k
      cases e
      exact .fork t k
    · cases e
  | other pg pr v =>
    simp only [ExC.runW, ExC.run] at e
    split at e
    · rename_i k
      rw [Bool.or_eq_true, decide_eq_true_eq] at k
      cases e
      exact .other pg pr _ k
    · cases e

/-- A single step. -/
def ExC.single (s : CSys) : ExC → Bool
  | .go t n _ => decide (n = 1) && match s.run t with | some (_, .act _ _) => true | _ => false
  | _ => true

theorem ExC.single_ok {a : ExC} (e : a.single s = true) : ∀ t n x, a = .go t n x → n = 1 ∧ ∃ c P, s.run t = some (c, P) ∧ ∀ y, P ≠ .ret y := by
  rintro t n x rfl
  simp only [ExC.single, Bool.and_eq_true, decide_eq_true_eq] at e
  refine ⟨e.1, ?_⟩
  have e2 := e.2
  split at e2
  · rename_i c _ _ _ _ hr; exact ⟨_, _, hr, by simp⟩
  · cases e2

def pathW (ro : Ro) (ar : Nat → Nat) (I : CSys → Bool) : List ExC → List CEv → CSys → Option (List CEv × CSys)
  | [], h, s => some (h, s)
  | a :: as, h, s => if I s && a.single s then (a.runW ro ar h s).bind fun x => pathW ro ar I as x.1 x.2 else none

theorem pathW_steps {I : CSys → Bool} {as : List ExC} {h0 h' : List CEv} {s0 s' : CSys} {J : List CEv → CSys → Prop} (hJ : ∀ h s, I s = true → J h s)
    (r : WSteps ro ar calm J h0 s0 h s) (e : pathW ro ar I as h s = some (h', s')) :
    WSteps ro ar calm J h0 s0 h' s' := by
  induction as generalizing h s with
  | nil => cases e; exact r
  | cons a as ih =>
    unfold pathW at e
    split at e
    · rename_i k
      rw [Bool.and_eq_true] at k
      obtain ⟨⟨h1, s1⟩, k1, k2⟩ := Option.bind_eq_some_iff.mp e
      exact ih (r.tail (hJ _ _ k.1) (ExC.runW_step (ExC.single_ok k.2) k1)) k2
    · cases e

def exFreed : List ExC :=
  [.inv 0 (.malloc 100) 0, .inv 4 (.calloc 300 10) 0, .go 0 2 0, .go 4 1 0, .inv 1 (.malloc 200000) 0, .go 1 2 exMapAt, .go 0 9 0, .ret 0,
    .inv 0 (.free exA) exA, .go 0 99 0, .ret 0, .store (exA + 50) 7#8 0]

def exReuse (h : List CEv) (s : CSys) : Bool :=
  ((ExC.inv 0 (.malloc 100) 0).runW (exRo false true) (fun t => t % 4) h s).any fun x =>
    (pathW (exRo false true) (fun t => t % 4) (fun s => decide (s.σ.vm.prot ((exA + 50) / 4096) = .rw) && decide (s.σ.vm.mem (exA + 50) ≠ 0))
        [.go 0 1 0, .go 4 1 0, .go 0 1 0, .go 0 1 0] x.1 x.2).any fun x =>
      (match x.2.run 0 with | some (.malloc n, .ret (.ptr q)) => n == 100 && q == exA + 112 | _ => false) &&
        decide (usableB (exRo false true) x.2.σ (exA + 112) = some 104)

/-- What `c59_write_after_free_partial` assumes happens: the block at `exA` is freed and written to; thread 0 then allocates, with a
step of thread 4 in between, and gets another block. -/
example : ∃ h0 s0 s1 h2 s2 s3 y q, WReach (exCfg false true) (exRo false true) (fun t => t % 4) false h0 s0 ∧
    WStep (exRo false true) (fun t => t % 4) false h0 s0 (.inv 0 (.malloc 100) 0 :: h0) s1 ∧
    WSteps (exRo false true) (fun t => t % 4) false (fun _ s => s.σ.vm.prot ((exA + 50) / 4096) = .rw ∧ s.σ.vm.mem (exA + 50) ≠ 0)
      (.inv 0 (.malloc 100) 0 :: h0) s1 h2 s2 ∧
    WStep (exRo false true) (fun t => t % 4) false h2 s2 (.ret 0 (.malloc 100) y :: h2) s3 ∧
    y.block = some q ∧ q ≠ exA ∧ (exRo false true).slabStart ≤ q ∧ q < (exRo false true).slabEnd ∧ Usable (exRo false true) s3.σ q 104 := by
  obtain ⟨h, s, r, h2⟩ := ex_wild (stats := false) (sealed := true) (calm := false) exFreed exReuse (by decide +kernel)
  unfold exReuse at h2
  rw [Option.any_eq_true] at h2
  obtain ⟨⟨h1, s1⟩, e1, h2⟩ := h2
  rw [Option.any_eq_true] at h2
  obtain ⟨⟨h2, s2⟩, e2, h3⟩ := h2
  simp only [Bool.and_eq_true, decide_eq_true_eq] at h3
  have i1 : WStep (exRo false true) (fun t => t % 4) false h s h1 s1 := ExC.runW_step (by simp) e1
  simp only [ExC.runW] at e1
  split at e1
  · cases e1
    have st := pathW_steps (calm := false) (J := fun _ s => s.σ.vm.prot ((exA + 50) / 4096) = .rw ∧ s.σ.vm.mem (exA + 50) ≠ 0) (fun _ s e => by simpa using e) .refl e2
    obtain ⟨k1, k2⟩ := h3
    have : s2.run 0 = some (.malloc 100, .ret (.ptr (exA + 112))) := by
      cases hr : s2.run 0 with
      | none => rw [hr] at k1; cases k1
      | some x =>
        rw [hr] at k1
        split at k1
        · rename_i e; simp only [Bool.and_eq_true, beq_iff_eq] at k1; rw [k1.1, k1.2] at e; rw [← e]
        · cases k1
    exact ⟨h, s, _, h2, s2, _, _, exA + 112, r, i1, st, .ret 0 this, by decide, by decide, by decide, by decide, usableB_usable k2⟩
  · cases e1

end HM
