import Verif.Small
import Verif.SizeClassLemmas
import Verif.Props.Libdivide
import Verif.Props.FreeSlot
import Mathlib.Data.Finset.Card
/-
Geometry of slabs, bit counting, linked lists and VM lemmas used by the slab allocator proofs.
-/
namespace HM

/-! ### Geometry -/

/-- Facts about every class of both tables, checked by the kernel over the complete tables. -/
theorem class_table_facts (g : Cfg) {cls : Nat} (h : cls < nClasses g) :
    1 ≤ g.slots cls ∧ g.slots cls ≤ 256 ∧ 16 ≤ g.slotSize cls ∧ g.slotSize cls ≤ 131072 ∧ g.slotSize cls % 16 = 0 ∧
    g.slots cls * g.slotSize cls ≤ g.slabSize cls ∧ g.slabSize cls % PAGE = 0 ∧ g.slabSize cls ≤ 131072 ∧
    4096 ≤ g.slabSize cls ∧
    g.slabSize cls ≤ 256 * g.slotSize cls ∧ (cls = 0 ↔ g.classSize cls = 0) ∧
    quarantineShift g (g.slotSize cls) ≤ g.maxSlabShift - 4 := by
  unfold nClasses at h
  unfold Cfg.slabSize Cfg.slots Cfg.slotSize Cfg.classSize sizeClasses sizeClassSlots quarantineShift Cfg.maxSlabShift
  cases he : g.extended
  · rw [he] at h
    simp only [Bool.false_eq_true, if_false] at h ⊢
    revert cls
    decide +kernel
  · rw [he] at h
    simp only [if_true] at h ⊢
    revert cls
    decide +kernel

/-- The same facts, by name. -/
structure ClassGeo (g : Cfg) (cls : Nat) : Prop where
  slots_pos : 1 ≤ g.slots cls
  slots_le : g.slots cls ≤ 256
  size_ge : 16 ≤ g.slotSize cls
  size_le : g.slotSize cls ≤ 131072
  size_mod : g.slotSize cls % 16 = 0
  fits : g.slots cls * g.slotSize cls ≤ g.slabSize cls
  slab_mod : g.slabSize cls % PAGE = 0
  slab_le : g.slabSize cls ≤ 131072
  slab_ge : 4096 ≤ g.slabSize cls
  slab_idx : g.slabSize cls ≤ 256 * g.slotSize cls
  zero_iff : cls = 0 ↔ g.classSize cls = 0
  shift_le : quarantineShift g (g.slotSize cls) ≤ g.maxSlabShift - 4

theorem classGeo (g : Cfg) {cls : Nat} (h : cls < nClasses g) : ClassGeo g cls := by
  obtain ⟨a, b, c, d, e, f, i, j, k, l, m, n⟩ := class_table_facts g h
  exact ⟨a, b, c, d, e, f, i, j, k, l, m, n⟩

/-! ### Counting bits -/

/-- Number of set bits among the first `slots`. -/
def bitCount (bm : Bitmap) (slots : Nat) : Nat := ((Finset.range slots).filter fun k => bm.bit k = true).card

theorem bitCount_le (bm : Bitmap) (slots : Nat) : bitCount bm slots ≤ slots := by
  unfold bitCount
  exact (Finset.card_filter_le _ _).trans (by simp)

theorem bitCount_zero_iff (bm : Bitmap) (slots : Nat) : bitCount bm slots = 0 ↔ ∀ k, k < slots → bm.bit k = false := by
  unfold bitCount
  rw [Finset.card_eq_zero, Finset.filter_eq_empty_iff]
  constructor
  · intro h k hk; simpa using h (Finset.mem_range.mpr hk)
  · intro h k hk; simp [h k (Finset.mem_range.mp hk)]

theorem bitCount_full_iff (bm : Bitmap) (slots : Nat) : bitCount bm slots = slots ↔ ∀ k, k < slots → bm.bit k = true := by
  unfold bitCount
  have := Finset.card_filter_eq_iff (s := Finset.range slots) (p := fun k => bm.bit k = true)
  rw [Finset.card_range] at this
  rw [this]
  constructor
  · intro h k hk; exact h k (Finset.mem_range.mpr hk)
  · intro h k hk; exact h k (Finset.mem_range.mp hk)

theorem bitCount_set {bm : Bitmap} {slots k : Nat} (hk : k < slots) (h : bm.bit k = false) :
    bitCount (bm.set k) slots = bitCount bm slots + 1 := by
  unfold bitCount
  have : (Finset.range slots).filter (fun i => (bm.set k).bit i = true) =
      insert k ((Finset.range slots).filter fun i => bm.bit i = true) := by
    ext i
    simp only [Finset.mem_filter, Finset.mem_range, Finset.mem_insert, Bitmap.bit_set]
    by_cases hik : i = k
    · subst hik; simp [hk]
    · simp [hik]
  rw [this, Finset.card_insert_of_notMem]
  simp [h]

theorem bitCount_clear {bm : Bitmap} {slots k : Nat} (hk : k < slots) (h : bm.bit k = true) :
    bitCount (bm.clear k) slots + 1 = bitCount bm slots := by
  unfold bitCount
  have : (Finset.range slots).filter (fun i => bm.bit i = true) =
      insert k ((Finset.range slots).filter fun i => (bm.clear k).bit i = true) := by
    ext i
    simp only [Finset.mem_filter, Finset.mem_range, Finset.mem_insert, Bitmap.bit_clear]
    by_cases hik : i = k
    · subst hik; simp [hk, h]
    · simp [hik]
  rw [this, Finset.card_insert_of_notMem]
  simp [Bitmap.bit_clear]

/-! ### Linked lists -/

/-- `l` is the list of indices reached by following `next`; the last `next` is NULL. -/
def Sll (slabs : Nat → Slab) : List Nat → Prop
  | [] => True
  | x :: xs => (slabs x).next = xs.head? ∧ Sll slabs xs

/-- `l` is a doubly linked list whose first `prev` is `pr`. -/
def Dll (slabs : Nat → Slab) : Option Nat → List Nat → Prop
  | _, [] => True
  | pr, x :: xs => (slabs x).prev = pr ∧ (slabs x).next = xs.head? ∧ Dll slabs (some x) xs

theorem Sll.congr {s s' : Nat → Slab} : ∀ {l : List Nat}, Sll s l → (∀ x, x ∈ l → (s' x).next = (s x).next) → Sll s' l
  | [], _, _ => trivial
  | x :: xs, h, hc => ⟨by rw [hc x (by simp)]; exact h.1, Sll.congr h.2 fun y hy => hc y (by simp [hy])⟩

theorem Dll.congr {s s' : Nat → Slab} : ∀ {l : List Nat} {pr : Option Nat}, Dll s pr l →
    (∀ x, x ∈ l → (s' x).next = (s x).next ∧ (s' x).prev = (s x).prev) → Dll s' pr l
  | [], _, _, _ => trivial
  | x :: xs, _, h, hc =>
      ⟨by rw [(hc x (by simp)).2]; exact h.1, by rw [(hc x (by simp)).1]; exact h.2.1,
        Dll.congr h.2.2 fun y hy => hc y (by simp [hy])⟩

/-- Appending at the tail of a singly linked list. -/
theorem Sll.append {s : Nat → Slab} {y : Nat} : ∀ {l : List Nat} {t : Nat}, Sll s l → l.getLast? = some t → l.Nodup →
    y ∉ l → (s y).next = none → Sll (fun k => if k = t then { s t with next := some y } else s k) (l ++ [y])
  | [], _, _, h, _, _, _ => by simp at h
  | [x], t, h, ht, _, hy, hn => by
      have : x = t := by simpa using ht
      subst this
      have hyx : y ≠ x := by simpa using hy
      refine ⟨by simp, ?_, trivial⟩
      simp [hyx, hn]
  | x :: z :: zs, t, h, ht, hnd, hy, hn => by
      have ht' : (z :: zs).getLast? = some t := by simpa [List.getLast?_cons_cons] using ht
      have hnd' : (z :: zs).Nodup := (List.nodup_cons.mp hnd).2
      have hxt : x ≠ t := by
        rintro rfl
        exact (List.nodup_cons.mp hnd).1 (List.mem_of_getLast? ht')
      have ih := Sll.append (s := s) (y := y) h.2 ht' hnd' (by intro hm; exact hy (by simp at hm ⊢; right; exact hm)) hn
      refine ⟨?_, ih⟩
      simp only [hxt, if_false]
      rw [h.1]
      rfl

/-- In a doubly linked list, an element's `next` is the head of what follows. -/
theorem Dll.split {s : Nat → Slab} {m : Nat} : ∀ {l : List Nat} {pr : Option Nat}, Dll s pr l → m ∈ l →
    ∃ l1 l2, l = l1 ++ m :: l2 ∧ (s m).next = l2.head? ∧ (s m).prev = (l1.getLast?.or pr)
  | [], _, _, h => by simp at h
  | x :: xs, pr, h, hm => by
      by_cases hxm : x = m
      · subst hxm
        exact ⟨[], xs, rfl, h.2.1, by simpa using h.1⟩
      · have hm' : m ∈ xs := by
          rcases List.mem_cons.mp hm with h | h
          · exact absurd h.symm hxm
          · exact h
        obtain ⟨l1, l2, he, hn, hp⟩ := Dll.split h.2.2 hm'
        refine ⟨x :: l1, l2, by rw [he]; rfl, hn, ?_⟩
        rw [hp]
        cases l1 with
        | nil => simp
        | cons a as => simp [List.getLast?_cons]

theorem Dll.of_append {s : Nat → Slab} : ∀ {l1 l2 : List Nat} {pr : Option Nat}, Dll s pr (l1 ++ l2) →
    Dll s (l1.getLast?.or pr) l2
  | [], _, _, h => by simpa using h
  | x :: xs, l2, pr, h => by
      have := Dll.of_append (l1 := xs) h.2.2
      cases xs with
      | nil => simpa using this
      | cons a as => simpa [List.getLast?_cons_cons, List.getLast?_cons] using this

/-- Removing element `m`, as in h_malloc.c:885-893: the neighbours are linked to each other. The function `s'` describes
the links afterwards. -/
theorem Dll.remove {s s' : Nat → Slab} {m : Nat} {l2 : List Nat} : ∀ {l1 : List Nat} {pr : Option Nat},
    Dll s pr (l1 ++ m :: l2) → (l1 ++ m :: l2).Nodup →
    (∀ x, x ∈ l1 → (s' x).prev = (s x).prev) → (∀ x, x ∈ l2 → (s' x).next = (s x).next) →
    (∀ x, x ∈ l1 → (s' x).next = if l1.getLast? = some x then l2.head? else (s x).next) →
    (∀ x, x ∈ l2 → (s' x).prev = if l2.head? = some x then (l1.getLast?.or pr) else (s x).prev) →
    Dll s' pr (l1 ++ l2)
  | [], pr, h, hnd, _, hn2, _, hp2 => by
      have h2 : Dll s (some m) l2 := h.2.2
      have hnd2 : l2.Nodup := (List.nodup_cons.mp hnd).2
      cases l2 with
      | nil => trivial
      | cons a as =>
        refine ⟨?_, ?_, ?_⟩
        · rw [hp2 a (by simp)]; simp
        · rw [hn2 a (by simp)]; exact h2.2.1
        · refine Dll.congr h2.2.2 ?_
          intro x hx
          refine ⟨hn2 x (by simp [hx]), ?_⟩
          rw [hp2 x (by simp [hx])]
          have : a ≠ x := by rintro rfl; exact (List.nodup_cons.mp hnd2).1 hx
          simp [this]
  | [x], pr, h, hnd, hp1, hn2, hn1, hp2 => by
      have h2 : Dll s (some m) l2 := h.2.2.2.2
      have hnd2 : l2.Nodup := by simp at hnd; exact hnd.2.2
      refine ⟨?_, ?_, ?_⟩
      · rw [hp1 x (by simp)]; exact h.1
      · rw [hn1 x (by simp)]; simp
      · cases l2 with
        | nil => trivial
        | cons a as =>
          refine ⟨?_, ?_, ?_⟩
          · rw [hp2 a (by simp)]; simp
          · rw [hn2 a (by simp)]; exact h2.2.1
          · refine Dll.congr h2.2.2 ?_
            intro y hy
            refine ⟨hn2 y (by simp [hy]), ?_⟩
            rw [hp2 y (by simp [hy])]
            have : a ≠ y := by rintro rfl; exact (List.nodup_cons.mp hnd2).1 hy
            simp [this]
  | x :: z :: zs, pr, h, hnd, hp1, hn2, hn1, hp2 => by
      have hnd' : ((z :: zs) ++ m :: l2).Nodup := (List.nodup_cons.mp hnd).2
      have hx : x ∉ (z :: zs) ++ m :: l2 := (List.nodup_cons.mp hnd).1
      have ih := Dll.remove (s := s) (s' := s') (m := m) (l2 := l2) (l1 := z :: zs) (pr := some x) h.2.2 hnd'
        (fun y hy => hp1 y (by simp at hy ⊢; right; exact hy)) hn2
        (fun y hy => by
          rw [hn1 y (by simp at hy ⊢; right; exact hy)]
          simp [List.getLast?_cons_cons])
        (fun y hy => by
          rw [hp2 y hy]
          simp [List.getLast?_cons])
      refine ⟨?_, ?_, ih⟩
      · rw [hp1 x (by simp)]; exact h.1
      · rw [hn1 x (by simp)]
        have : (x :: z :: zs).getLast? ≠ some x := by
          intro he
          rw [List.getLast?_cons_cons] at he
          exact hx (by simp only [List.mem_append]; left; exact List.mem_of_getLast? he)
        rw [if_neg this]
        exact h.2.1

/-! ### Virtual memory -/

theorem Vm.allPages_iff {a n : Nat} {f : Nat → Bool} :
    Vm.allPages a n f = true ↔ ∀ pg, inPages a n pg → f pg = true := by
  unfold Vm.allPages inPages
  rw [decide_eq_true_iff]
  constructor
  · intro h pg ⟨h1, h2⟩
    have := h (pg - a / PAGE) (by omega)
    rwa [show a / PAGE + (pg - a / PAGE) = pg by omega] at this
  · intro h k hk
    exact h _ ⟨by omega, by omega⟩

theorem Vm.accessible_iff {vm : Vm} {a n : Nat} (hn : 0 < n) :
    vm.accessible a n = true ↔ ∀ x, inRange a n x → vm.prot (x / PAGE) = .rw := by
  unfold Vm.accessible
  rw [Bool.or_eq_true, beq_iff_eq, Vm.allPages_iff]
  constructor
  · rintro (h | h) x ⟨h1, h2⟩
    · omega
    · have := h (x / PAGE) ⟨by omega, by omega⟩
      simpa using this
  · intro h
    right
    intro pg ⟨h1, h2⟩
    rw [beq_iff_eq]
    by_cases hc : pg = a / PAGE
    · rw [hc]; exact h a ⟨by omega, by omega⟩
    · have := h (pg * PAGE) ⟨by omega, by omega⟩
      rwa [Nat.mul_div_cancel _ (by decide)] at this

theorem Vm.accessible_of_pages {vm : Vm} {a n : Nat} (h : ∀ x, inRange a n x → vm.prot (x / PAGE) = .rw) :
    vm.accessible a n = true := by
  by_cases hn : n = 0
  · subst hn; simp [Vm.accessible]
  · exact (Vm.accessible_iff (by omega)).mpr h

/-- With aligned start and length, the pages of a range are those of its bytes. -/
theorem inPages_iff {a n pg : Nat} (ha : a % PAGE = 0) (hn : n % PAGE = 0) :
    inPages a n pg ↔ a ≤ pg * PAGE ∧ pg * PAGE < a + n := by
  unfold inPages
  constructor
  · rintro ⟨h1, h2⟩; omega
  · rintro ⟨h1, h2⟩; omega

theorem inPages_addr {a n x : Nat} (ha : a % PAGE = 0) (hn : n % PAGE = 0) :
    inPages a n (x / PAGE) ↔ inRange a n x := by
  unfold inPages inRange
  constructor
  · rintro ⟨h1, h2⟩; omega
  · rintro ⟨h1, h2⟩; omega

end HM
