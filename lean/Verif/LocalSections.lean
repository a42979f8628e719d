import Verif.LogicPages
import Verif.CellSmall
/-
The sections in which a lock is held are local: they depend only on, and change only, the parts of the state that belong to
their lock.
-/
namespace HM

variable {ro : Ro} {t : Nat} {w : World}

/-! ### The lock of the region allocator -/

theorem drawGuard_local {size : Nat} : LocalS ro t (.regions false false) (fun ch σ e => .ok (σ, e, guardSize ro.g ch size)) w :=
  LocalS.regions fun _ _ _ _ _ => rfl

theorem insertRegion_local {p size guard : Nat} {stats : Bool} : LocalS ro t (.regions false (!stats)) (fun ch σ e =>
    if σ.rt.free * 4 < σ.rt.total ∧ (ch.sys 0 = .other ∨ ch.growRemap = .other) then
      .fatal "non-ENOMEM mprotect failure"
    else
      match regionsInsert hashPage ro.g.maxRegionTable (decide (ch.sys 0 = .ok)) (decide (ch.growRemap = .ok)) σ.rt
          ⟨p, size, guard⟩ with
      | .ok (some rt) =>
          .ok ({ σ with rt := rt, largeAllocated :=
            if ro.g.stats && stats then add64 σ.largeAllocated size else σ.largeAllocated },
            (if σ.rt.free * 4 < σ.rt.total then ch.label 0 (if ch.growRemap = .ok then e else ENOMEM) else e), true)
      | .ok none =>
          .ok (σ, (if σ.rt.total > (W64 - 1) / 24 / 2 ∨ σ.rt.total * 2 > ro.g.maxRegionTable then e else ENOMEM), false)
      | .fatal m => .fatal m
      | .segv => .segv
      | .ub w => .ub w
      | .hang => .hang) w := by
  refine LocalS.regions fun ch σ e vm sc => ?_
  dsimp only
  split
  · rfl
  · cases regionsInsert hashPage ro.g.maxRegionTable (decide (ch.sys 0 = .ok)) (decide (ch.growRemap = .ok)) σ.rt ⟨p, size, guard⟩ with
    | ok o => cases o <;> exact rfl
    | fatal m => rfl
    | segv => trivial
    | ub m => rfl
    | hang => trivial

theorem findRegion_local {p : Nat} {msg : String} : LocalS ro t (.regions false false) (fun _ σ e =>
    match lookupRegion σ.rt p with
    | .ok (some (_, r)) => .ok (σ, e, (r.size, r.guard))
    | .ok none => .fatal msg
    | .fatal m => .fatal m
    | .segv => .segv
    | .ub w => .ub w
    | .hang => .hang) w := by
  refine LocalS.regions fun ch σ e vm sc => ?_
  dsimp only
  cases lookupRegion σ.rt p with
  | ok o => cases o <;> exact rfl
  | fatal m => rfl
  | segv => trivial
  | ub m => rfl
  | hang => trivial

theorem removeRegion_local {p : Nat} {expected : Option Nat} {msg : String} : LocalS ro t (.regions false false) (fun _ σ e =>
    match lookupRegion σ.rt p with
    | .ok (some (i, r)) =>
        if expected.any (fun s => r.size ≠ getLargeSizeClass ro.g s) then .fatal "sized deallocation mismatch (large)"
        else
          match regionsDelete hashPage σ.rt i with
          | .ok rt =>
              .ok ({ σ with rt := rt, largeAllocated :=
                if ro.g.stats then sub64 σ.largeAllocated r.size else σ.largeAllocated }, e, (r.size, r.guard))
          | .fatal m => .fatal m
          | .segv => .segv
          | .ub w => .ub w
          | .hang => .hang
    | .ok none => .fatal msg
    | .fatal m => .fatal m
    | .segv => .segv
    | .ub w => .ub w
    | .hang => .hang) w := by
  refine LocalS.regions fun ch σ e vm sc => ?_
  dsimp only
  cases lookupRegion σ.rt p with
  | ok o =>
    cases o with
    | none => exact rfl
    | some x =>
      obtain ⟨i, r⟩ := x
      dsimp only
      split
      · rfl
      · cases regionsDelete hashPage σ.rt i with
        | ok o => exact rfl
        | fatal m => rfl
        | segv => trivial
        | ub m => rfl
        | hang => trivial
  | fatal m => rfl
  | segv => trivial
  | ub m => rfl
  | hang => trivial

theorem resizeRegion_local {p oldSize size : Nat} : LocalS ro t (.regions false false) (fun _ σ e =>
    match lookupRegion σ.rt p with
    | .ok (some (i, r)) =>
        .ok ({ σ with rt := σ.rt.setTab (σ.rt.tab.set i { r with size := size }), largeAllocated :=
          if ro.g.stats then sub64 σ.largeAllocated (oldSize - size) else σ.largeAllocated }, e, ())
    | .ok none => .fatal "invalid realloc"
    | .fatal m => .fatal m
    | .segv => .segv
    | .ub w => .ub w
    | .hang => .hang) w := by
  refine LocalS.regions fun ch σ e vm sc => ?_
  dsimp only
  cases lookupRegion σ.rt p with
  | ok o => cases o <;> exact rfl
  | fatal m => rfl
  | segv => trivial
  | ub m => rfl
  | hang => trivial

theorem quarantineRegion_local {x : Nat × Nat} : LocalS ro t (.regions true false) (fun ch σ e =>
    let r := pushRegionRandom ro.g ch σ x
    if r.2.1 = 0 then .ok (r.1, e, none)
    else
      let r := pushRegionQueue ro.g r.1 r.2
      .ok (r.1, e, if r.2.1 = 0 then none else some r.2)) w := by
  refine LocalS.regions fun ch σ e vm sc => ?_
  dsimp only
  have h1 : pushRegionRandom ro.g ch { σ with vm := vm σ.vm, sc := sc σ.sc } x =
      ({ (pushRegionRandom ro.g ch σ x).1 with vm := vm (pushRegionRandom ro.g ch σ x).1.vm, sc := sc (pushRegionRandom ro.g ch σ x).1.sc },
        (pushRegionRandom ro.g ch σ x).2) := by
    unfold pushRegionRandom; split <;> rfl
  rw [h1]
  generalize pushRegionRandom ro.g ch σ x = y
  obtain ⟨σ, x⟩ := y
  dsimp only
  split
  · exact rfl
  · have h1 : pushRegionQueue ro.g { σ with vm := vm σ.vm, sc := sc σ.sc } x =
        ({ (pushRegionQueue ro.g σ x).1 with vm := vm (pushRegionQueue ro.g σ x).1.vm, sc := sc (pushRegionQueue ro.g σ x).1.sc },
          (pushRegionQueue ro.g σ x).2) := by
      unfold pushRegionQueue; split <;> rfl
    rw [h1]
    exact rfl

theorem largeObjectSize_local {p : Nat} : LocalS ro t (.regions false false) (fun _ σ e =>
    match lookupRegion σ.rt p with
    | .ok (some (_, r)) => .ok (σ, e, r.size)
    | .ok none => .ok (σ, e, W64 - 1)
    | .fatal m => .fatal m
    | .segv => .segv
    | .ub w => .ub w
    | .hang => .hang) w := by
  refine LocalS.regions fun ch σ e vm sc => ?_
  dsimp only
  cases lookupRegion σ.rt p with
  | ok o => cases o <;> exact rfl
  | fatal m => rfl
  | segv => trivial
  | ub m => rfl
  | hang => trivial

theorem readLargeStats_local : LocalS ro t (.regions false false) (fun _ σ e => .ok (σ, e, σ.largeAllocated)) w := LocalS.regions fun _ _ _ _ _ => rfl

/-! ### The locks of the size classes -/

/-- What is not used by a section of a class. -/
theorem avoid_of_uses {a c : Nat} {fr : Option Nat} {N : Cell → Prop} (hN : ∀ l, (Sect.cls a c fr).uses ro w.σ l → ¬ N l) :
    Avoid ro.g (ro.regionStart a c) c (w.σ.sc a c) fr (fun pg => N (.prot pg)) (fun x => N (.mem x)) where
  prot := fun pg hp => hN (.prot pg) hp
  mem := fun x hx hu => hN (.mem x) ⟨hx, hu⟩

theorem patch_sc {σ ν : St} {a c : Nat} {N : Cell → Prop} (hn : ¬ N (.sc a c)) : (σ.patch N ν).sc a c = σ.sc a c := if_neg hn

/-- The state with new data of one class. -/
theorem patch_setClass {σ ν : St} {a c : Nat} {N : Cell → Prop} {x : SC} {vm : Vm} (hn : ¬ N (.sc a c)) :
    ({ σ.patch N ν with
      vm := vm.patch (fun pg => N (.prot pg)) (fun x => N (.mem x)) ν.vm
      sc := fun a' k => if a' = a ∧ k = c then x else (σ.patch N ν).sc a' k } : St) =
    ({ σ with vm := vm, sc := fun a' k => if a' = a ∧ k = c then x else σ.sc a' k } : St).patch N ν := by
  have : (fun a' k => if a' = a ∧ k = c then x else (σ.patch N ν).sc a' k) =
      (({ σ with vm := vm, sc := fun a' k => if a' = a ∧ k = c then x else σ.sc a' k } : St).patch N ν).sc := by
    classical
    funext a' k
    unfold St.patch
    dsimp only
    by_cases h : a' = a ∧ k = c
    · obtain ⟨rfl, rfl⟩ := h
      rw [if_pos ⟨rfl, rfl⟩, if_neg hn, if_pos ⟨rfl, rfl⟩]
    · rw [if_neg h, if_neg h]
  rw [this]; rfl

/-- A section of a class that does something with the data of the class and memory. -/
theorem local_class {α : Type} {a c : Nat} {fr : Option Nat} {G : Choice → SC → Vm → Errno → Res (α × SC × Vm × Errno)}
    (ha : a < ro.g.nArena) (hc : c < nClasses ro.g) (hfr : ∀ p, fr = some p → w.G.blk p = .thr t)
    (h : ∀ ch e (P B : Nat → Prop) ν, Avoid ro.g (ro.regionStart a c) c (w.σ.sc a c) fr P B →
      Res.Rel (PatchA P B ν) (G ch (w.σ.sc a c) w.σ.vm e) (G ch (w.σ.sc a c) (w.σ.vm.patch P B ν) e)) :
    LocalS ro t (.cls a c fr) (fun ch σ e =>
      match G ch (σ.sc a c) σ.vm e with
      | .ok (r, x, vm, e) => .ok ({ σ with vm := vm, sc := fun a' k => if a' = a ∧ k = c then x else σ.sc a' k }, e, r)
      | .fatal m => .fatal m
      | .segv => .segv
      | .ub w => .ub w
      | .hang => .hang) w := by
  refine ⟨fun a' c' p e => by cases e; exact Or.inl ⟨ha, hc, hfr⟩, fun ch N ν e hN => ?_⟩
  have hn : ¬ N (.sc a c) := hN (.sc a c) ⟨rfl, rfl⟩
  have := h ch e _ _ ν.vm (avoid_of_uses hN)
  dsimp only
  rw [patch_sc hn, show (w.σ.patch N ν).vm = w.σ.vm.patch (fun pg => N (.prot pg)) (fun x => N (.mem x)) ν.vm from rfl]
  revert this
  cases G ch (w.σ.sc a c) w.σ.vm e <;>
    cases G ch (w.σ.sc a c) (w.σ.vm.patch (fun pg => N (.prot pg)) (fun x => N (.mem x)) ν.vm) e <;> intro this <;>
    first | exact this | exact this.elim | skip
  rename_i r r'
  obtain ⟨r1, r2, r3, r4⟩ := r
  obtain ⟨q1, q2, q3, q4⟩ := r'
  obtain ⟨h1, h2, h3, h4⟩ := this
  simp only at h1 h2 h3 h4
  subst h1 h2 h3 h4
  show (_, _, _) = (_, _, _)
  rw [patch_setClass hn]

/-- A section of a class that only looks at the data of the class and memory. -/
theorem local_classRead {α β : Type} {a c : Nat} {G : Choice → SC → Vm → Res α} {g : α → β} (ha : a < ro.g.nArena) (hc : c < nClasses ro.g)
    (h : ∀ ch (P B : Nat → Prop) ν, Avoid ro.g (ro.regionStart a c) c (w.σ.sc a c) none P B → G ch (w.σ.sc a c) (w.σ.vm.patch P B ν) = G ch (w.σ.sc a c) w.σ.vm) :
    LocalS ro t (.cls a c none) (fun ch σ e =>
      match G ch (σ.sc a c) σ.vm with
      | .ok r => .ok (σ, e, g r)
      | .fatal m => .fatal m
      | .segv => .segv
      | .ub w => .ub w
      | .hang => .hang) w := by
  refine ⟨fun a' c' p e => by cases e; exact Or.inl ⟨ha, hc, fun _ e => by cases e⟩, fun ch N ν e hN => ?_⟩
  have hn : ¬ N (.sc a c) := hN (.sc a c) ⟨rfl, rfl⟩
  dsimp only
  rw [patch_sc hn, show (w.σ.patch N ν).vm = w.σ.vm.patch (fun pg => N (.prot pg)) (fun x => N (.mem x)) ν.vm from rfl,
    h ch _ _ ν.vm (avoid_of_uses hN)]
  cases G ch (w.σ.sc a c) w.σ.vm with
  | ok o => exact rfl
  | fatal m => rfl
  | segv => trivial
  | ub m => rfl
  | hang => trivial

theorem LocalS.congr {β : Type} {s : Sect} {f f' : Choice → St → Errno → Res (St × Errno × β)} (h : LocalS ro t s f w)
    (e : ∀ ch σ e, f' ch σ e = f ch σ e) : LocalS ro t s f' w := by
  rw [show f' = f from funext fun ch => funext fun σ => funext fun x => e ch σ x]; exact h

/-- A section that finds that the class does not exist. -/
theorem LocalS.guarded {β : Type} {s : Sect} {C : Prop} [Decidable C] {why : String} {f : Choice → St → Errno → Res (St × Errno × β)}
    (hC : ∀ a c fr, s = .cls a c fr → C → ¬ (a < ro.g.nArena ∧ c < nClasses ro.g)) (h : ¬ C → LocalS ro t s f w) :
    LocalS ro t s (fun ch σ e => if C then .ub why else f ch σ e) w := by
  by_cases hc : C
  · refine ⟨fun a c fr e => Or.inr ⟨hC a c fr e hc, fun ch σ e r => ?_⟩, fun ch N ν e hN => ?_⟩
    · dsimp only; rw [if_pos hc]; simp
    · dsimp only; rw [if_pos hc, if_pos hc]; rfl
  · have := h hc
    simp only [if_neg hc]
    exact this

theorem smallAlloc_local {a n : Nat} (hro : RoOk ro) (hi : GInv ro w) : LocalS ro t (.cls a (getSizeInfo n).cls none) (fun ch σ e =>
    let cls := (getSizeInfo n).cls
    if nClasses ro.g ≤ cls ∨ ro.g.nArena ≤ a then .ub "size class index out of bounds"
    else
      match allocateSmall ro.g (ro.regionStart a cls) cls n ch (σ.sc a cls) σ.vm e with
      | .ok (p, c, vm, e) =>
          .ok ({ σ with vm := vm, sc := fun a' k => if a' = a ∧ k = cls then c else σ.sc a' k }, e, p)
      | .fatal m => .fatal m
      | .segv => .segv
      | .ub w => .ub w
      | .hang => .hang) w := by
  refine LocalS.guarded (fun a c fr e hc => by cases e; omega) fun hc => ?_
  have hc' : (getSizeInfo n).cls < nClasses ro.g := by omega
  have ha : a < ro.g.nArena := by omega
  obtain ⟨LP, E, Fl, hinv⟩ := hi.cls a _ ha hc'
  refine (local_class (fr := none) (G := fun ch c vm e => allocateSmall ro.g (ro.regionStart a (getSizeInfo n).cls) (getSizeInfo n).cls n ch c vm e) ha hc' (fun _ e => by cases e)
    fun ch e P B ν hA => allocateSmall_patch hro.valid (hro.base ha hc') hc' hinv hA).congr fun ch σ e => ?_
  cases allocateSmall ro.g (ro.regionStart a (getSizeInfo n).cls) (getSizeInfo n).cls n ch (σ.sc a (getSizeInfo n).cls) σ.vm e <;> rfl

theorem smallTrim_local {a c : Nat} (hro : RoOk ro) (hi : GInv ro w) (ha : a < ro.g.nArena) (hc : c < nClasses ro.g) :
    LocalS ro t (.cls a c none) (fun ch σ e =>
      match trimClass ro.g (ro.regionStart a c) c ch (σ.sc a c) σ.vm e with
      | .ok (t, x, vm, e) => .ok ({ σ with vm := vm, sc := fun a' k => if a' = a ∧ k = c then x else σ.sc a' k }, e, t)
      | .fatal m => .fatal m
      | .segv => .segv
      | .ub w => .ub w
      | .hang => .hang) w := by
  obtain ⟨LP, E, Fl, hinv⟩ := hi.cls a _ ha hc
  refine (local_class (fr := none) (G := fun ch x vm e => trimClass ro.g (ro.regionStart a c) c ch x vm e) ha hc (fun _ e => by cases e)
    fun ch e P B ν hA => trimClass_patch hro.valid hro.freeQ (hro.base ha hc) hc hinv (hi.clsVm a c ha hc) hA).congr fun ch σ e => ?_
  cases trimClass ro.g (ro.regionStart a c) c ch (σ.sc a c) σ.vm e <;> rfl

theorem smallFree_local {p : Nat} {expected : Option Nat} (hro : RoOk ro) (hi : GInv ro w) (hp : p < W64)
    (hb : w.G.blk p = .thr t) :
    LocalS ro t (.cls (ro.sizeClassOf p).1 (ro.sizeClassOf p).2 (some p)) (fun ch σ e =>
      let arena := (ro.sizeClassOf p).1
      let cls := (ro.sizeClassOf p).2
      if nClasses ro.g ≤ cls ∨ ro.g.nArena ≤ arena then .ub "size class index out of bounds"
      else
        match deallocateSmall ro.g (ro.regionStart arena cls) cls p expected ch (σ.sc arena cls) σ.vm e with
        | .ok (c, vm, e) =>
            .ok ({ σ with vm := vm, sc := fun a k => if a = arena ∧ k = cls then c else σ.sc a k }, e, ())
        | .fatal m => .fatal m
        | .segv => .segv
        | .ub w => .ub w
        | .hang => .hang) w := by
  have hv : ¬ (nClasses ro.g ≤ (ro.sizeClassOf p).2 ∨ ro.g.nArena ≤ (ro.sizeClassOf p).1) → ∀ a c fr,
      Sect.cls (ro.sizeClassOf p).1 (ro.sizeClassOf p).2 (some p) = .cls a c fr →
      a < ro.g.nArena ∧ c < nClasses ro.g ∧ ∀ q, fr = some q → w.G.blk q = .thr t := fun hc a c fr e => by
    simp only [Sect.cls.injEq] at e
    obtain ⟨rfl, rfl, rfl⟩ := e
    exact ⟨by omega, by omega, fun q e => by cases e; exact hb⟩
  refine LocalS.guarded (fun a c fr e hc => by cases e; omega) fun hc => ⟨fun a c fr e => Or.inl (hv hc a c fr e), fun ch N ν e hN => ?_⟩
  have hc' : (ro.sizeClassOf p).2 < nClasses ro.g := by omega
  have ha : (ro.sizeClassOf p).1 < ro.g.nArena := by omega
  clear hc hb hv
  generalize (ro.sizeClassOf p).1 = a at *
  generalize (ro.sizeClassOf p).2 = c at *
  obtain ⟨LP, E, Fl, hinv⟩ := hi.cls a _ ha hc'
  have hn : ¬ N (.sc a c) := hN (.sc a c) ⟨rfl, rfl⟩
  have := deallocateSmall_patch (expected := expected) (ch := ch) (vm := w.σ.vm) (e := e) (ν := ν.vm) hro.valid (hro.base ha hc') hc' hp hinv (avoid_of_uses hN)
  dsimp only
  rw [patch_sc hn, show (w.σ.patch N ν).vm = w.σ.vm.patch (fun pg => N (.prot pg)) (fun x => N (.mem x)) ν.vm from rfl]
  revert this
  cases deallocateSmall ro.g (ro.regionStart a c) c p expected ch (w.σ.sc a c) w.σ.vm e <;>
    cases deallocateSmall ro.g (ro.regionStart a c) c p expected ch (w.σ.sc a c) (w.σ.vm.patch (fun pg => N (.prot pg)) (fun x => N (.mem x)) ν.vm) e <;>
    intro this <;> first | exact this | exact this.elim | skip
  rename_i r r'
  obtain ⟨r2, r3, r4⟩ := r
  obtain ⟨q2, q3, q4⟩ := r'
  obtain ⟨h2, h3, h4⟩ := this
  simp only at h2 h3 h4
  subst h2 h3 h4
  show (_, _, _) = (_, _, _)
  rw [patch_setClass hn]

theorem smallCheck_local {p : Nat} (hro : RoOk ro) (hi : GInv ro w) (hp : p < W64) :
    LocalS ro t (.cls (ro.sizeClassOf p).1 (ro.sizeClassOf p).2 none) (fun ch σ e =>
      let arena := (ro.sizeClassOf p).1
      let cls := (ro.sizeClassOf p).2
      if nClasses ro.g ≤ cls ∨ ro.g.nArena ≤ arena then .ub "size class index out of bounds"
      else
        match memoryCorruptionCheckSmall ro.g (tagging ro.g ch) (ro.regionStart arena cls) cls p (σ.sc arena cls) σ.vm with
        | .ok _ => .ok (σ, e, ())
        | .fatal m => .fatal m
        | .segv => .segv
        | .ub w => .ub w
        | .hang => .hang) w := by
  refine LocalS.guarded (fun a c fr e hc => by cases e; omega) fun hc => ?_
  have hc' : (ro.sizeClassOf p).2 < nClasses ro.g := by omega
  have ha : (ro.sizeClassOf p).1 < ro.g.nArena := by omega
  obtain ⟨LP, E, Fl, hinv⟩ := hi.cls _ _ ha hc'
  refine (local_classRead (a := (ro.sizeClassOf p).1) (c := (ro.sizeClassOf p).2) (g := fun _ => ()) (G := fun ch c vm => memoryCorruptionCheckSmall ro.g (tagging ro.g ch) (ro.regionStart (ro.sizeClassOf p).1 (ro.sizeClassOf p).2) (ro.sizeClassOf p).2 p c vm) ha hc'
    fun ch P B ν hA => memoryCorruptionCheckSmall_patch hro.valid (hro.base ha hc') hc' hp hinv hA).congr fun ch σ e => ?_
  cases memoryCorruptionCheckSmall ro.g (tagging ro.g ch) (ro.regionStart (ro.sizeClassOf p).1 (ro.sizeClassOf p).2) (ro.sizeClassOf p).2 p (σ.sc (ro.sizeClassOf p).1 (ro.sizeClassOf p).2) σ.vm <;> rfl

theorem smallOffset_local {p : Nat} : LocalS ro t (.cls (ro.sizeClassOf p).1 (ro.sizeClassOf p).2 none) (fun _ σ e =>
    let arena := (ro.sizeClassOf p).1
    let cls := (ro.sizeClassOf p).2
    if nClasses ro.g ≤ cls ∨ ro.g.nArena ≤ arena then .ub "size class index out of bounds"
    else
      match objectOffset ro.g (ro.regionStart arena cls) cls p (σ.sc arena cls) with
      | .ok n => .ok (σ, e, n)
      | .fatal m => .fatal m
      | .segv => .segv
      | .ub w => .ub w
      | .hang => .hang) w := by
  refine LocalS.guarded (fun a c fr e hc => by cases e; omega) fun hc => ?_
  refine (local_classRead (a := (ro.sizeClassOf p).1) (c := (ro.sizeClassOf p).2) (g := id) (G := fun _ c _ => objectOffset ro.g (ro.regionStart (ro.sizeClassOf p).1 (ro.sizeClassOf p).2) (ro.sizeClassOf p).2 p c) (by omega) (by omega)
    fun ch P B ν hA => rfl).congr fun ch σ e => ?_
  cases objectOffset ro.g (ro.regionStart (ro.sizeClassOf p).1 (ro.sizeClassOf p).2) (ro.sizeClassOf p).2 p (σ.sc (ro.sizeClassOf p).1 (ro.sizeClassOf p).2) <;> rfl

theorem readClassStats_local {a c : Nat} (ha : a < ro.g.nArena) (hc : c < nClasses ro.g) : LocalS ro t (.cls a c none) (fun _ σ e => .ok (σ, e, ((σ.sc a c).slabAllocated, (σ.sc a c).allocated))) w :=
  local_classRead (g := id) (G := fun _ c _ => .ok (c.slabAllocated, c.allocated)) ha hc fun _ _ _ _ _ => rfl

end HM
