import Verif.SmallBasics
/-
The three lists of slabs of a size class and the array of purged slabs: invariant and preservation by each list
operation of the slab allocator.
-/
namespace HM

/-- Where a slab is linked. `fresh`: never used (or guard); `out`: in use and in no list. -/
inductive Loc where
  | fresh
  | out
  | part
  | empty
  | free
  | quar (j : Nat)
  deriving DecidableEq

/-- The linked structures of a class agree with the location map `loc`. -/
structure Lists (g : Cfg) (c : SC) (P E F : List Nat) (loc : Nat → Loc) : Prop where
  pd : Dll c.slabs none P
  ph : c.partialHead = P.head?
  pn : P.Nodup
  pm : ∀ i, i ∈ P ↔ loc i = .part
  es : Sll c.slabs E
  eh : c.emptyHead = E.head?
  en : E.Nodup
  em : ∀ i, i ∈ E ↔ loc i = .empty
  fs : Sll c.slabs F
  fh : c.freeHead = F.head?
  ft : c.freeTail = F.getLast?
  fn : F.Nodup
  fm : ∀ i, i ∈ F ↔ loc i = .free
  qm : ∀ j i, c.freeQ j = some i ↔ loc i = .quar j
  ql : ∀ j i, loc i = .quar j → j < g.freeSlabsQ ∧ (c.slabs i).next = none

/-- Links and heads agree. -/
structure SameLinks (c c' : SC) : Prop where
  next : ∀ i, (c'.slabs i).next = (c.slabs i).next
  prev : ∀ i, (c'.slabs i).prev = (c.slabs i).prev
  ph : c'.partialHead = c.partialHead
  eh : c'.emptyHead = c.emptyHead
  fh : c'.freeHead = c.freeHead
  ft : c'.freeTail = c.freeTail
  fq : c'.freeQ = c.freeQ

theorem Lists.congr {g : Cfg} {c c' : SC} {P E F : List Nat} {loc : Nat → Loc} (h : Lists g c P E F loc)
    (s : SameLinks c c') : Lists g c' P E F loc where
  pd := h.pd.congr fun x _ => ⟨s.next x, s.prev x⟩
  ph := s.ph.trans h.ph
  pn := h.pn
  pm := h.pm
  es := h.es.congr fun x _ => s.next x
  eh := s.eh.trans h.eh
  en := h.en
  em := h.em
  fs := h.fs.congr fun x _ => s.next x
  fh := s.fh.trans h.fh
  ft := s.ft.trans h.ft
  fn := h.fn
  fm := h.fm
  qm := fun j i => by rw [s.fq]; exact h.qm j i
  ql := fun j i hl => by rw [s.next]; exact h.ql j i hl

/-- Location of `m` replaced. -/
def Loc.set (loc : Nat → Loc) (m : Nat) (v : Loc) : Nat → Loc := fun i => if i = m then v else loc i

@[simp] theorem Loc.set_same (loc : Nat → Loc) (m : Nat) (v : Loc) : Loc.set loc m v m = v := by simp [Loc.set]
theorem Loc.set_ne {loc : Nat → Loc} {m i : Nat} {v : Loc} (h : i ≠ m) : Loc.set loc m v i = loc i := by
  simp [Loc.set, h]

/-- Take the cached slab `m` when no slab is partial (h_malloc.c:608-615). -/
theorem Lists.takeEmpty {g : Cfg} {c c' : SC} {E F : List Nat} {loc : Nat → Loc} {m : Nat} {b : Bool}
    (h : Lists g c [] (m :: E) F loc)
    (hs : ∀ i, i ≠ m → (c'.slabs i).next = (c.slabs i).next ∧ (c'.slabs i).prev = (c.slabs i).prev)
    (hm : (c'.slabs m).next = none ∧ (c'.slabs m).prev = none)
    (hp : c'.partialHead = if b then some m else none) (he : c'.emptyHead = (c.slabs m).next)
    (hf : c'.freeHead = c.freeHead) (ht : c'.freeTail = c.freeTail) (hq : c'.freeQ = c.freeQ) :
    Lists g c' (if b then [m] else []) E F (Loc.set loc m (if b then .part else .out)) := by
  have hlm : loc m = .empty := (h.em m).mp (by simp)
  have hmE : m ∉ E := (List.nodup_cons.mp h.en).1
  have hne : ∀ i, i ∈ E → i ≠ m := fun i hi e => hmE (e ▸ hi)
  have hnf : ∀ i, i ∈ F → i ≠ m := fun i hi e => by
    have := (h.fm i).mp hi; rw [e, hlm] at this; exact absurd this (by simp)
  constructor
  · cases b
    · exact trivial
    · exact ⟨hm.2, hm.1, trivial⟩
  · rw [hp]; cases b <;> rfl
  · cases b <;> simp
  · intro i
    by_cases hi : i = m
    · subst hi; cases b <;> simp
    · rw [Loc.set_ne hi, ← h.pm i]; cases b <;> simp [hi]
  · exact (h.es.2).congr fun x hx => (hs x (hne x hx)).1
  · rw [he]; exact h.es.1
  · exact (List.nodup_cons.mp h.en).2
  · intro i
    by_cases hi : i = m
    · subst hi; cases b <;> simp [hmE]
    · rw [Loc.set_ne hi, ← h.em i]; simp [hi]
  · exact h.fs.congr fun x hx => (hs x (hnf x hx)).1
  · rw [hf]; exact h.fh
  · rw [ht]; exact h.ft
  · exact h.fn
  · intro i
    by_cases hi : i = m
    · subst hi
      have : i ∉ F := fun hF => hnf i hF rfl
      cases b <;> simp [this]
    · rw [Loc.set_ne hi]; exact h.fm i
  · intro j i
    rw [hq, h.qm j i]
    by_cases hi : i = m
    · subst hi; rw [hlm]; cases b <;> simp
    · rw [Loc.set_ne hi]
  · intro j i
    by_cases hi : i = m
    · subst hi; cases b <;> simp
    · rw [Loc.set_ne hi, (hs i hi).1]; exact h.ql j i

/-- Take the purged slab `m` when no slab is partial (h_malloc.c:649-658). -/
theorem Lists.takeFree {g : Cfg} {c c' : SC} {E F : List Nat} {loc : Nat → Loc} {m : Nat} {b : Bool}
    (h : Lists g c [] E (m :: F) loc)
    (hs : ∀ i, i ≠ m → (c'.slabs i).next = (c.slabs i).next ∧ (c'.slabs i).prev = (c.slabs i).prev)
    (hm : (c'.slabs m).next = none ∧ (c'.slabs m).prev = none)
    (hp : c'.partialHead = if b then some m else none) (he : c'.emptyHead = c.emptyHead)
    (hf : c'.freeHead = (c.slabs m).next)
    (ht : c'.freeTail = if (c.slabs m).next = none then none else c.freeTail) (hq : c'.freeQ = c.freeQ) :
    Lists g c' (if b then [m] else []) E F (Loc.set loc m (if b then .part else .out)) := by
  have hlm : loc m = .free := (h.fm m).mp (by simp)
  have hmF : m ∉ F := (List.nodup_cons.mp h.fn).1
  have hnf : ∀ i, i ∈ F → i ≠ m := fun i hi e => hmF (e ▸ hi)
  have hne : ∀ i, i ∈ E → i ≠ m := fun i hi e => by
    have := (h.em i).mp hi; rw [e, hlm] at this; exact absurd this (by simp)
  constructor
  · cases b
    · exact trivial
    · exact ⟨hm.2, hm.1, trivial⟩
  · rw [hp]; cases b <;> rfl
  · cases b <;> simp
  · intro i
    by_cases hi : i = m
    · subst hi; cases b <;> simp
    · rw [Loc.set_ne hi, ← h.pm i]; cases b <;> simp [hi]
  · exact h.es.congr fun x hx => (hs x (hne x hx)).1
  · rw [he]; exact h.eh
  · exact h.en
  · intro i
    by_cases hi : i = m
    · subst hi
      have : i ∉ E := fun hE => hne i hE rfl
      cases b <;> simp [this]
    · rw [Loc.set_ne hi]; exact h.em i
  · exact (h.fs.2).congr fun x hx => (hs x (hnf x hx)).1
  · rw [hf]; exact h.fs.1
  · rw [ht, h.fs.1, h.ft]
    cases F with
    | nil => simp
    | cons a as => simp [List.getLast?_cons_cons]
  · exact (List.nodup_cons.mp h.fn).2
  · intro i
    by_cases hi : i = m
    · subst hi; cases b <;> simp [hmF]
    · rw [Loc.set_ne hi, ← h.fm i]; simp [hi]
  · intro j i
    rw [hq, h.qm j i]
    by_cases hi : i = m
    · subst hi; rw [hlm]; cases b <;> simp
    · rw [Loc.set_ne hi]
  · intro j i
    by_cases hi : i = m
    · subst hi; cases b <;> simp
    · rw [Loc.set_ne hi, (hs i hi).1]; exact h.ql j i

/-- A new slab `m` when no slab is partial (h_malloc.c:675-682). -/
theorem Lists.takeNew {g : Cfg} {c c' : SC} {E F : List Nat} {loc : Nat → Loc} {m : Nat} {b : Bool}
    (h : Lists g c [] E F loc) (hl : loc m = .fresh)
    (hs : ∀ i, i ≠ m → (c'.slabs i).next = (c.slabs i).next ∧ (c'.slabs i).prev = (c.slabs i).prev)
    (hm : (c'.slabs m).next = none ∧ (c'.slabs m).prev = none)
    (hp : c'.partialHead = if b then some m else none) (he : c'.emptyHead = c.emptyHead)
    (hf : c'.freeHead = c.freeHead)
    (ht : c'.freeTail = c.freeTail) (hq : c'.freeQ = c.freeQ) :
    Lists g c' (if b then [m] else []) E F (Loc.set loc m (if b then .part else .out)) := by
  have hne : ∀ i, i ∈ E → i ≠ m := fun i hi e => by
    have := (h.em i).mp hi; rw [e, hl] at this; exact absurd this (by simp)
  have hnf : ∀ i, i ∈ F → i ≠ m := fun i hi e => by
    have := (h.fm i).mp hi; rw [e, hl] at this; exact absurd this (by simp)
  constructor
  · cases b
    · exact trivial
    · exact ⟨hm.2, hm.1, trivial⟩
  · rw [hp]; cases b <;> rfl
  · cases b <;> simp
  · intro i
    by_cases hi : i = m
    · subst hi; cases b <;> simp
    · rw [Loc.set_ne hi, ← h.pm i]; cases b <;> simp [hi]
  · exact h.es.congr fun x hx => (hs x (hne x hx)).1
  · rw [he]; exact h.eh
  · exact h.en
  · intro i
    by_cases hi : i = m
    · subst hi
      have : i ∉ E := fun hE => hne i hE rfl
      cases b <;> simp [this]
    · rw [Loc.set_ne hi]; exact h.em i
  · exact h.fs.congr fun x hx => (hs x (hnf x hx)).1
  · rw [hf]; exact h.fh
  · rw [ht, h.ft]
  · exact h.fn
  · intro i
    by_cases hi : i = m
    · subst hi
      have : i ∉ F := fun hF => hnf i hF rfl
      cases b <;> simp [this]
    · rw [Loc.set_ne hi]; exact h.fm i
  · intro j i
    rw [hq, h.qm j i]
    by_cases hi : i = m
    · subst hi; rw [hl]; cases b <;> simp
    · rw [Loc.set_ne hi]
  · intro j i
    by_cases hi : i = m
    · subst hi; cases b <;> simp
    · rw [Loc.set_ne hi, (hs i hi).1]; exact h.ql j i

/-- Remove `m` from the partial list (h_malloc.c:708-713, 884-892). -/
theorem Lists.removePartial {g : Cfg} {c c' : SC} {P E F l1 l2 : List Nat} {loc : Nat → Loc} {m : Nat}
    (h : Lists g c P E F loc) (hP : P = l1 ++ m :: l2)
    (hp : c'.partialHead = (l1 ++ l2).head?)
    (hprev : ∀ i, i ≠ m → (c'.slabs i).prev = if l2.head? = some i then l1.getLast? else (c.slabs i).prev)
    (hnext : ∀ i, i ≠ m → (c'.slabs i).next = if l1.getLast? = some i then l2.head? else (c.slabs i).next)
    (he : c'.emptyHead = c.emptyHead) (hf : c'.freeHead = c.freeHead)
    (ht : c'.freeTail = c.freeTail) (hq : c'.freeQ = c.freeQ) :
    Lists g c' (l1 ++ l2) E F (Loc.set loc m .out) := by
  have hlm : loc m = .part := (h.pm m).mp (by simp [hP])
  have hnd := h.pn
  rw [hP] at hnd
  have hnd' : (l1 ++ l2).Nodup := by
    rw [List.nodup_append] at hnd ⊢
    refine ⟨hnd.1, (List.nodup_cons.mp hnd.2.1).2, fun a ha b hb => hnd.2.2 a ha b (by simp [hb])⟩
  have hm1 : m ∉ l1 := by
    intro hm
    rw [List.nodup_append] at hnd
    exact hnd.2.2 m hm m (by simp) rfl
  have hm2 : m ∉ l2 := by
    rw [List.nodup_append] at hnd
    exact (List.nodup_cons.mp hnd.2.1).1
  have hd12 : ∀ x, x ∈ l1 → x ∉ l2 := by
    intro x hx hx2
    rw [List.nodup_append] at hnd
    exact hnd.2.2 x hx x (by simp [hx2]) rfl
  have hloc : ∀ i, l1.getLast? = some i ∨ i ∈ P → loc i = .part := by
    rintro i (hi | hi)
    · exact (h.pm i).mp (by rw [hP]; simp [List.mem_of_getLast? hi])
    · exact (h.pm i).mp hi
  have hkeep : ∀ i, loc i ≠ .part → i ≠ m ∧ (c'.slabs i).next = (c.slabs i).next := by
    intro i hi
    have him : i ≠ m := fun e => hi (e ▸ hlm)
    refine ⟨him, ?_⟩
    rw [hnext i him, if_neg]
    intro hl
    exact hi (hloc i (Or.inl hl))
  have hE : ∀ i, i ∈ E → loc i ≠ .part := fun i hi => by rw [(h.em i).mp hi]; simp
  have hF : ∀ i, i ∈ F → loc i ≠ .part := fun i hi => by rw [(h.fm i).mp hi]; simp
  constructor
  · have hd := h.pd
    rw [hP] at hd
    refine Dll.remove (s := c.slabs) (m := m) hd hnd ?_ ?_ ?_ ?_
    · intro x hx
      rw [hprev x (fun e => hm1 (e ▸ hx)), if_neg]
      intro hh
      exact hd12 x hx (List.mem_of_mem_head? hh)
    · intro x hx
      rw [hnext x (fun e => hm2 (e ▸ hx)), if_neg]
      intro hh
      exact hd12 x (List.mem_of_getLast? hh) hx
    · intro x hx
      exact hnext x (fun e => hm1 (e ▸ hx))
    · intro x hx
      rw [hprev x (fun e => hm2 (e ▸ hx))]; simp
  · exact hp
  · exact hnd'
  · intro i
    by_cases hi : i = m
    · subst hi; simp [hm1, hm2]
    · rw [Loc.set_ne hi, ← h.pm i, hP]; simp [hi]
  · exact h.es.congr fun x hx => (hkeep x (hE x hx)).2
  · rw [he]; exact h.eh
  · exact h.en
  · intro i
    by_cases hi : i = m
    · subst hi
      have : i ∉ E := fun hE' => hE i hE' hlm
      simp [this]
    · rw [Loc.set_ne hi]; exact h.em i
  · exact h.fs.congr fun x hx => (hkeep x (hF x hx)).2
  · rw [hf]; exact h.fh
  · rw [ht, h.ft]
  · exact h.fn
  · intro i
    by_cases hi : i = m
    · subst hi
      have : i ∉ F := fun hF' => hF i hF' hlm
      simp [this]
    · rw [Loc.set_ne hi]; exact h.fm i
  · intro j i
    rw [hq, h.qm j i]
    by_cases hi : i = m
    · subst hi; rw [hlm]; simp
    · rw [Loc.set_ne hi]
  · intro j i
    by_cases hi : i = m
    · subst hi; simp
    · rw [Loc.set_ne hi]
      intro hl
      rw [(hkeep i (by rw [hl]; simp)).2]
      exact h.ql j i hl

/-- Put `m`, which is in no list, at the head of the partial list (h_malloc.c:868-876). -/
theorem Lists.pushPartial {g : Cfg} {c c' : SC} {P E F : List Nat} {loc : Nat → Loc} {m : Nat}
    (h : Lists g c P E F loc) (hl : loc m = .out) (hp : c'.partialHead = some m)
    (hm : (c'.slabs m).next = c.partialHead ∧ (c'.slabs m).prev = none)
    (hprev : ∀ i, i ≠ m → (c'.slabs i).prev = if c.partialHead = some i then some m else (c.slabs i).prev)
    (hnext : ∀ i, i ≠ m → (c'.slabs i).next = (c.slabs i).next)
    (he : c'.emptyHead = c.emptyHead) (hf : c'.freeHead = c.freeHead)
    (ht : c'.freeTail = c.freeTail) (hq : c'.freeQ = c.freeQ) :
    Lists g c' (m :: P) E F (Loc.set loc m .part) := by
  have hnm : ∀ i, loc i ≠ .out → i ≠ m := fun i hi e => hi (e ▸ hl)
  have hP : ∀ i, i ∈ P → i ≠ m := fun i hi => hnm i (by rw [(h.pm i).mp hi]; simp)
  have hE : ∀ i, i ∈ E → i ≠ m := fun i hi => hnm i (by rw [(h.em i).mp hi]; simp)
  have hF : ∀ i, i ∈ F → i ≠ m := fun i hi => hnm i (by rw [(h.fm i).mp hi]; simp)
  constructor
  · refine ⟨hm.2, by rw [hm.1, h.ph], ?_⟩
    have hd := h.pd
    have hph := h.ph
    have hn := h.pn
    cases P with
    | nil => trivial
    | cons a as =>
      refine ⟨?_, ?_, ?_⟩
      · rw [hprev a (hP a (by simp)), if_pos (by rw [hph]; rfl)]
      · rw [hnext a (hP a (by simp))]; exact hd.2.1
      · refine hd.2.2.congr fun x hx => ⟨hnext x (hP x (by simp [hx])), ?_⟩
        rw [hprev x (hP x (by simp [hx])), if_neg]
        rw [hph]
        intro e
        have : a = x := by simpa using e
        exact (List.nodup_cons.mp hn).1 (this ▸ hx)
  · rw [hp]; rfl
  · exact List.nodup_cons.mpr ⟨fun hi => hP m hi rfl, h.pn⟩
  · intro i
    by_cases hi : i = m
    · subst hi; simp
    · rw [Loc.set_ne hi, ← h.pm i]; simp [hi]
  · exact h.es.congr fun x hx => hnext x (hE x hx)
  · rw [he]; exact h.eh
  · exact h.en
  · intro i
    by_cases hi : i = m
    · subst hi
      have : i ∉ E := fun hE' => hE i hE' rfl
      simp [this]
    · rw [Loc.set_ne hi]; exact h.em i
  · exact h.fs.congr fun x hx => hnext x (hF x hx)
  · rw [hf]; exact h.fh
  · rw [ht, h.ft]
  · exact h.fn
  · intro i
    by_cases hi : i = m
    · subst hi
      have : i ∉ F := fun hF' => hF i hF' rfl
      simp [this]
    · rw [Loc.set_ne hi]; exact h.fm i
  · intro j i
    rw [hq, h.qm j i]
    by_cases hi : i = m
    · subst hi; rw [hl]; simp
    · rw [Loc.set_ne hi]
  · intro j i
    by_cases hi : i = m
    · subst hi; simp
    · rw [Loc.set_ne hi, hnext i hi]; exact h.ql j i

/-- Put `m`, which is in no list, at the head of the list of cached slabs (h_malloc.c:905-907). -/
theorem Lists.pushEmpty {g : Cfg} {c c' : SC} {P E F : List Nat} {loc : Nat → Loc} {m : Nat}
    (h : Lists g c P E F loc) (hl : loc m = .out) (hp : c'.partialHead = c.partialHead)
    (hm : (c'.slabs m).next = c.emptyHead)
    (hs : ∀ i, i ≠ m → (c'.slabs i).next = (c.slabs i).next ∧ (c'.slabs i).prev = (c.slabs i).prev)
    (he : c'.emptyHead = some m) (hf : c'.freeHead = c.freeHead)
    (ht : c'.freeTail = c.freeTail) (hq : c'.freeQ = c.freeQ) :
    Lists g c' P (m :: E) F (Loc.set loc m .empty) := by
  have hnm : ∀ i, loc i ≠ .out → i ≠ m := fun i hi e => hi (e ▸ hl)
  have hP : ∀ i, i ∈ P → i ≠ m := fun i hi => hnm i (by rw [(h.pm i).mp hi]; simp)
  have hE : ∀ i, i ∈ E → i ≠ m := fun i hi => hnm i (by rw [(h.em i).mp hi]; simp)
  have hF : ∀ i, i ∈ F → i ≠ m := fun i hi => hnm i (by rw [(h.fm i).mp hi]; simp)
  constructor
  · exact h.pd.congr fun x hx => hs x (hP x hx)
  · rw [hp]; exact h.ph
  · exact h.pn
  · intro i
    by_cases hi : i = m
    · subst hi
      have : i ∉ P := fun hP' => hP i hP' rfl
      simp [this]
    · rw [Loc.set_ne hi]; exact h.pm i
  · exact ⟨by rw [hm, h.eh], h.es.congr fun x hx => (hs x (hE x hx)).1⟩
  · rw [he]; rfl
  · exact List.nodup_cons.mpr ⟨fun hi => hE m hi rfl, h.en⟩
  · intro i
    by_cases hi : i = m
    · subst hi; simp
    · rw [Loc.set_ne hi, ← h.em i]; simp [hi]
  · exact h.fs.congr fun x hx => (hs x (hF x hx)).1
  · rw [hf]; exact h.fh
  · rw [ht, h.ft]
  · exact h.fn
  · intro i
    by_cases hi : i = m
    · subst hi
      have : i ∉ F := fun hF' => hF i hF' rfl
      simp [this]
    · rw [Loc.set_ne hi]; exact h.fm i
  · intro j i
    rw [hq, h.qm j i]
    by_cases hi : i = m
    · subst hi; rw [hl]; simp
    · rw [Loc.set_ne hi]
  · intro j i
    by_cases hi : i = m
    · subst hi; simp
    · rw [Loc.set_ne hi, (hs i hi).1]; exact h.ql j i

/-- Pop the head of the list of cached slabs (h_malloc.c:1895, 1913-1918). -/
theorem Lists.popEmpty {g : Cfg} {c c' : SC} {P E F : List Nat} {loc : Nat → Loc} {m : Nat}
    (h : Lists g c P (m :: E) F loc) (hp : c'.partialHead = c.partialHead)
    (hs : ∀ i, i ≠ m → (c'.slabs i).next = (c.slabs i).next ∧ (c'.slabs i).prev = (c.slabs i).prev)
    (he : c'.emptyHead = (c.slabs m).next) (hf : c'.freeHead = c.freeHead)
    (ht : c'.freeTail = c.freeTail) (hq : c'.freeQ = c.freeQ) :
    Lists g c' P E F (Loc.set loc m .out) := by
  have hlm : loc m = .empty := (h.em m).mp (by simp)
  have hnm : ∀ i, loc i ≠ .empty → i ≠ m := fun i hi e => hi (e ▸ hlm)
  have hmE : m ∉ E := (List.nodup_cons.mp h.en).1
  have hP : ∀ i, i ∈ P → i ≠ m := fun i hi => hnm i (by rw [(h.pm i).mp hi]; simp)
  have hE : ∀ i, i ∈ E → i ≠ m := fun i hi e => hmE (e ▸ hi)
  have hF : ∀ i, i ∈ F → i ≠ m := fun i hi => hnm i (by rw [(h.fm i).mp hi]; simp)
  constructor
  · exact h.pd.congr fun x hx => hs x (hP x hx)
  · rw [hp]; exact h.ph
  · exact h.pn
  · intro i
    by_cases hi : i = m
    · subst hi
      have : i ∉ P := fun hP' => hP i hP' rfl
      simp [this]
    · rw [Loc.set_ne hi]; exact h.pm i
  · exact (h.es.2).congr fun x hx => (hs x (hE x hx)).1
  · rw [he]; exact h.es.1
  · exact (List.nodup_cons.mp h.en).2
  · intro i
    by_cases hi : i = m
    · subst hi; simp [hmE]
    · rw [Loc.set_ne hi, ← h.em i]; simp [hi]
  · exact h.fs.congr fun x hx => (hs x (hF x hx)).1
  · rw [hf]; exact h.fh
  · rw [ht, h.ft]
  · exact h.fn
  · intro i
    by_cases hi : i = m
    · subst hi
      have : i ∉ F := fun hF' => hF i hF' rfl
      simp [this]
    · rw [Loc.set_ne hi]; exact h.fm i
  · intro j i
    rw [hq, h.qm j i]
    by_cases hi : i = m
    · subst hi; rw [hlm]; simp
    · rw [Loc.set_ne hi]
  · intro j i
    by_cases hi : i = m
    · subst hi; simp
    · rw [Loc.set_ne hi, (hs i hi).1]; exact h.ql j i

/-- `enqueueFreeSlab` on a slab in no list: it enters the array; the slab it replaces, if any, goes to the end of the
list of purged slabs. Nothing but the links and this array changes. -/
theorem Lists.enqueue {g : Cfg} {c : SC} {P E F : List Nat} {loc : Nat → Loc} {m draw : Nat}
    (h : Lists g c P E F loc) (hl : loc m = .out) (hq0 : 1 ≤ g.freeSlabsQ) :
    ∃ c' F' loc' j, enqueueFreeSlab g draw c m = .ok c' ∧ Lists g c' P E F' loc' ∧
      loc' m = .quar j ∧ (∀ i, i ≠ m → loc' i = loc i ∨ (loc i = .quar j ∧ loc' i = .free)) ∧
      (∃ sl fh ft fq, c' = { c with slabs := sl, freeHead := fh, freeTail := ft, freeQ := fq } ∧
        ∀ i, ∃ n, sl i = { c.slabs i with next := n } ∧ (loc i = .fresh → n = (c.slabs i).next)) := by
  have hidx : u16Uniform draw g.freeSlabsQ < g.freeSlabsQ := u16Uniform_lt draw (by omega)
  unfold enqueueFreeSlab
  rw [if_neg (by omega)]
  generalize hj : u16Uniform draw g.freeSlabsQ = j at hidx
  simp only [SC.upd]
  have hnm : ∀ i, loc i ≠ .out → i ≠ m := fun i hi e => hi (e ▸ hl)
  have hP : ∀ i, i ∈ P → i ≠ m := fun i hi => hnm i (by rw [(h.pm i).mp hi]; simp)
  have hE : ∀ i, i ∈ E → i ≠ m := fun i hi => hnm i (by rw [(h.em i).mp hi]; simp)
  have hF : ∀ i, i ∈ F → i ≠ m := fun i hi => hnm i (by rw [(h.fm i).mp hi]; simp)
  cases hsub : c.freeQ j with
  | none =>
    have hnoq : ∀ i, loc i ≠ .quar j := fun i hi => by
      have := (h.qm j i).mpr hi; rw [hsub] at this; exact absurd this (by simp)
    refine ⟨_, F, Loc.set loc m (.quar j), j, rfl, ?_, by simp, fun i hi => Or.inl (Loc.set_ne hi), ?_⟩
    · constructor
      · exact h.pd.congr fun x hx => by simp [hP x hx]
      · exact h.ph
      · exact h.pn
      · intro i
        by_cases hi : i = m
        · subst hi
          have : i ∉ P := fun hP' => hP i hP' rfl
          simp [this]
        · rw [Loc.set_ne hi]; exact h.pm i
      · exact h.es.congr fun x hx => by simp [hE x hx]
      · exact h.eh
      · exact h.en
      · intro i
        by_cases hi : i = m
        · subst hi
          have : i ∉ E := fun hE' => hE i hE' rfl
          simp [this]
        · rw [Loc.set_ne hi]; exact h.em i
      · exact h.fs.congr fun x hx => by simp [hF x hx]
      · exact h.fh
      · exact h.ft
      · exact h.fn
      · intro i
        by_cases hi : i = m
        · subst hi
          have : i ∉ F := fun hF' => hF i hF' rfl
          simp [this]
        · rw [Loc.set_ne hi]; exact h.fm i
      · intro j' i
        unfold setAt
        by_cases hj' : j' = j
        · subst hj'
          simp only [if_true]
          by_cases hi : i = m
          · subst hi; simp
          · rw [Loc.set_ne hi]
            constructor
            · intro e; simp at e; exact absurd e.symm hi
            · intro e; exact absurd e (hnoq i)
        · simp only [hj', if_false]
          rw [h.qm j' i]
          by_cases hi : i = m
          · subst hi; rw [hl]; simp; exact fun e => hj' e.symm
          · rw [Loc.set_ne hi]
      · intro j' i
        by_cases hi : i = m
        · subst hi; simp; rintro rfl; exact hidx
        · rw [Loc.set_ne hi]; simp only [hi, if_false]; exact h.ql j' i
    · refine ⟨_, _, _, _, rfl, fun i => ?_⟩
      by_cases hi : i = m
      · subst hi; exact ⟨none, by simp, fun hf => by rw [hl] at hf; simp at hf⟩
      · exact ⟨(c.slabs i).next, by simp [hi], fun _ => rfl⟩
  | some sub =>
    have hls : loc sub = .quar j := (h.qm j sub).mp hsub
    have hsm : sub ≠ m := hnm sub (by rw [hls]; simp)
    have hsn : (c.slabs sub).next = none := (h.ql j sub hls).2
    have huniq : ∀ i, loc i = .quar j → i = sub := fun i hi => by
      have := (h.qm j i).mpr hi; rw [hsub] at this; simpa using this.symm
    have hsF : sub ∉ F := fun hF' => by have := (h.fm sub).mp hF'; rw [hls] at this; exact absurd this (by simp)
    -- location map shared by both cases
    have hP' : ∀ i, i ∈ P → i ≠ sub := fun i hi e => by
      have := (h.pm i).mp hi; rw [e, hls] at this; exact absurd this (by simp)
    have hE' : ∀ i, i ∈ E → i ≠ sub := fun i hi e => by
      have := (h.em i).mp hi; rw [e, hls] at this; exact absurd this (by simp)
    have key : ∀ (c' : SC), c'.partialHead = c.partialHead → c'.emptyHead = c.emptyHead →
        c'.freeHead = (F ++ [sub]).head? → c'.freeTail = some sub → c'.freeQ = setAt c.freeQ j (some m) →
        (∀ i, (c'.slabs i).prev = (c.slabs i).prev) →
        (∀ i, i ∉ F → i ≠ m → (c'.slabs i).next = (c.slabs i).next) → (c'.slabs m).next = none →
        Sll c'.slabs (F ++ [sub]) →
        Lists g c' P E (F ++ [sub]) (Loc.set (Loc.set loc sub .free) m (.quar j)) := by
      intro c' k1 k2 k3 k4 k5 k6 k7 k8 k9
      have hPF : ∀ i, i ∈ P → i ∉ F := fun i hi hF' => by
        have := (h.pm i).mp hi; rw [(h.fm i).mp hF'] at this; exact absurd this (by simp)
      have hEF : ∀ i, i ∈ E → i ∉ F := fun i hi hF' => by
        have := (h.em i).mp hi; rw [(h.fm i).mp hF'] at this; exact absurd this (by simp)
      constructor
      · exact h.pd.congr fun x hx => ⟨k7 x (hPF x hx) (hP x hx), k6 x⟩
      · rw [k1]; exact h.ph
      · exact h.pn
      · intro i
        by_cases hi : i = m
        · subst hi
          have : i ∉ P := fun hP' => hP i hP' rfl
          simp [this]
        · rw [Loc.set_ne hi]
          by_cases hs : i = sub
          · subst hs
            have : i ∉ P := fun hP'' => hP' i hP'' rfl
            simp [this]
          · rw [Loc.set_ne hs]; exact h.pm i
      · exact h.es.congr fun x hx => k7 x (hEF x hx) (hE x hx)
      · rw [k2]; exact h.eh
      · exact h.en
      · intro i
        by_cases hi : i = m
        · subst hi
          have : i ∉ E := fun hE' => hE i hE' rfl
          simp [this]
        · rw [Loc.set_ne hi]
          by_cases hs : i = sub
          · subst hs
            have : i ∉ E := fun hE'' => hE' i hE'' rfl
            simp [this]
          · rw [Loc.set_ne hs]; exact h.em i
      · exact k9
      · exact k3
      · rw [k4]; simp
      · rw [List.nodup_append]
        refine ⟨h.fn, by simp, ?_⟩
        intro a ha b hb e
        have : b = sub := by simpa using hb
        exact hsF (this ▸ e ▸ ha)
      · intro i
        by_cases hi : i = m
        · subst hi
          have : i ∉ F := fun hF' => hF i hF' rfl
          simp [this, Ne.symm hsm]
        · rw [Loc.set_ne hi]
          by_cases hs : i = sub
          · subst hs; simp
          · rw [Loc.set_ne hs, ← h.fm i]; simp [hs]
      · intro j' i
        rw [k5]
        unfold setAt
        by_cases hj' : j' = j
        · subst hj'
          simp only [if_true]
          by_cases hi : i = m
          · subst hi; simp
          · rw [Loc.set_ne hi]
            constructor
            · intro e; simp at e; exact absurd e.symm hi
            · intro e
              by_cases hs : i = sub
              · subst hs; simp at e
              · rw [Loc.set_ne hs] at e; exact absurd (huniq i e) hs
        · simp only [hj', if_false]
          rw [h.qm j' i]
          by_cases hi : i = m
          · subst hi; rw [hl]; simp; exact fun e => hj' e.symm
          · rw [Loc.set_ne hi]
            by_cases hs : i = sub
            · subst hs; rw [hls]; simp; exact fun e => hj' e.symm
            · rw [Loc.set_ne hs]
      · intro j' i
        by_cases hi : i = m
        · subst hi; simp; rintro rfl; exact ⟨hidx, k8⟩
        · rw [Loc.set_ne hi]
          by_cases hs : i = sub
          · subst hs; simp
          · rw [Loc.set_ne hs]
            intro hq
            rw [k7 i (fun hF' => by rw [(h.fm i).mp hF'] at hq; exact absurd hq (by simp)) hi]
            exact h.ql j' i hq
    have hlocs : ∀ i, i ≠ m → (Loc.set (Loc.set loc sub .free) m (.quar j)) i = loc i ∨
        (loc i = .quar j ∧ (Loc.set (Loc.set loc sub .free) m (.quar j)) i = .free) := by
      intro i hi
      rw [Loc.set_ne hi]
      by_cases hs : i = sub
      · subst hs; right; simp [hls]
      · left; rw [Loc.set_ne hs]
    cases htl : c.freeTail with
    | none =>
      have hF0 : F = [] := by
        have := h.ft; rw [htl] at this; exact List.getLast?_eq_none_iff.mp this.symm
      refine ⟨_, F ++ [sub], _, j, rfl, key _ rfl rfl ?_ rfl rfl ?_ ?_ ?_ ?_, by simp, hlocs, ?_⟩
      · subst hF0; rfl
      · intro i; simp only; split
        · rename_i e; rw [e]
        · rfl
      · intro i _ hi; simp [hi]
      · simp
      · subst hF0; exact ⟨by simp [hsm, hsn], trivial⟩
      · refine ⟨_, _, _, _, rfl, fun i => ?_⟩
        by_cases hi : i = m
        · subst hi; exact ⟨none, by simp, fun hf => by rw [hl] at hf; simp at hf⟩
        · exact ⟨(c.slabs i).next, by simp [hi], fun _ => rfl⟩
    | some t =>
      have htF : F.getLast? = some t := by rw [← h.ft, htl]
      have ht' : t ∈ F := List.mem_of_getLast? htF
      have htm : t ≠ m := hF t ht'
      have hts : t ≠ sub := fun e => hsF (e ▸ ht')
      refine ⟨_, F ++ [sub], _, j, rfl, key _ rfl rfl ?_ rfl rfl ?_ ?_ ?_ ?_, by simp, hlocs, ?_⟩
      · show c.freeHead = _
        rw [h.fh]
        cases F with
        | nil => simp at ht'
        | cons a as => rfl
      · intro i; simp only; split
        · rename_i e; rw [e]
        · split
          · rename_i e; rw [e]
          · rfl
      · intro i hiF hi
        have : i ≠ t := fun e => hiF (e ▸ ht')
        simp [hi, this]
      · simp [Ne.symm htm]
      · have hS := Sll.append (s := c.slabs) (y := sub) h.fs htF h.fn hsF hsn
        refine hS.congr ?_
        intro x hx
        have hxm : x ≠ m := by
          rcases List.mem_append.mp hx with hx | hx
          · exact hF x hx
          · have : x = sub := by simpa using hx
            exact this ▸ hsm
        by_cases hxt : x = t
        · subst hxt; simp
        · simp [hxt, hxm]
      · refine ⟨_, _, _, _, rfl, fun i => ?_⟩
        by_cases hi : i = t
        · subst hi; exact ⟨some sub, by simp [htm], fun hf => by rw [(h.fm i).mp ht'] at hf; simp at hf⟩
        · by_cases him : i = m
          · subst him; exact ⟨none, by simp [hi], fun hf => by rw [hl] at hf; simp at hf⟩
          · exact ⟨(c.slabs i).next, by simp [hi, him], fun _ => rfl⟩

end HM
