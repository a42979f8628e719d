import Verif.Mte
import Verif.Props.Blocks
import Verif.Props.Free
/-
The tags of reachable states.
-/
namespace HM

theorem u4_get_set (arr : Nat → BitVec 8) (i j : Nat) (v : BitVec 8) (hv : v.toNat < 16) :
    u4ArrGet (u4ArrSet arr i v) j = if j = i then v else u4ArrGet arr j := by
  have e1 : ∀ n : Nat, n >>> 1 = n / 2 := fun n => by rw [Nat.shiftRight_eq_div_pow]
  have e2 : ∀ n : Nat, n &&& 1 = n % 2 := fun n => Nat.and_one_is_mod n
  have hv' : ∀ k, 4 ≤ k → v.getLsbD k = false := fun k hk => by
    rw [BitVec.getLsbD, Nat.testBit_lt_two_pow]
    exact Nat.lt_of_lt_of_le hv (show 2 ^ 4 ≤ 2 ^ k from Nat.pow_le_pow_right (by decide) hk)
  simp only [u4ArrGet, u4ArrSet, e1, e2]
  by_cases h : j / 2 = i / 2
  · rw [if_pos h, h]
    by_cases hji : j = i
    · subst hji
      rw [if_pos rfl]
      rcases Nat.mod_two_eq_zero_or_one j with hp | hp <;> rw [hp] <;>
      · apply BitVec.eq_of_getLsbD_eq
        intro k hk
        have := hv' k
        match k, hk with
        | 0, _ | 1, _ | 2, _ | 3, _ | 4, _ | 5, _ | 6, _ | 7, _ => simp at this ⊢ <;> simp [*]
    · rw [if_neg hji]
      have : i % 2 = 0 ∧ j % 2 = 1 ∨ i % 2 = 1 ∧ j % 2 = 0 := by omega
      rcases this with ⟨h1, h2⟩ | ⟨h1, h2⟩ <;> rw [h1, h2] <;>
      · apply BitVec.eq_of_getLsbD_eq
        intro k hk
        have := hv' (k + 4) (by omega)
        match k, hk with
        | 0, _ | 1, _ | 2, _ | 3, _ | 4, _ | 5, _ | 6, _ | 7, _ => simp at this ⊢ <;> first | done | simp [*]
  · rw [if_neg h, if_neg (by rintro rfl; exact h rfl)]
theorem u4_get_lt (arr : Nat → BitVec 8) (i : Nat) : (u4ArrGet arr i).toNat < 16 := by
  simp only [u4ArrGet, BitVec.toNat_and]
  exact Nat.lt_of_le_of_lt Nat.and_le_right (by decide)

/-! ### Random tags -/

/-- The system leaves a tag other than 0 when three further tags are excluded. -/
def SysOk (sys : Nat → Bool) : Prop := ∀ a b c, ∃ t, t < 16 ∧ t ≠ 0 ∧ t ≠ a ∧ t ≠ b ∧ t ≠ c ∧ sys t = false

theorem insertRandomTag_spec {sys : Nat → Bool} {mask r : Nat} (h : ∃ t, t < 16 ∧ mask.testBit t = false ∧ sys t = false) :
    insertRandomTag sys mask r < 16 ∧ mask.testBit (insertRandomTag sys mask r) = false ∧ sys (insertRandomTag sys mask r) = false := by
  obtain ⟨t, h1, h2, h3⟩ := h
  unfold insertRandomTag
  simp only
  generalize hl : (List.range 16).filter (fun t => !mask.testBit t && !sys t) = l
  have hm : ∀ x, x ∈ l ↔ x < 16 ∧ mask.testBit x = false ∧ sys x = false := fun x => by
    rw [← hl, List.mem_filter, List.mem_range]; simp
  have hpos : 0 < l.length := List.length_pos_of_mem ((hm t).mpr ⟨h1, h2, h3⟩)
  have hlt := Nat.mod_lt r hpos
  rw [show l.getD (r % l.length) 0 = l[r % l.length] by simp [List.getD, hlt]]
  exact (hm _).mp (List.getElem_mem _)

theorem exclusionMask_testBit (arr : Nat → BitVec 8) (k t : Nat) : (exclusionMask arr k).testBit t = false ↔
    t ≠ 0 ∧ t ≠ (u4ArrGet arr k).toNat ∧ t ≠ (u4ArrGet arr (k + 1)).toNat ∧ t ≠ (u4ArrGet arr (k + 2)).toNat := by
  unfold exclusionMask
  simp only [Nat.one_shiftLeft, Nat.testBit_or, Nat.testBit_two_pow, Bool.or_eq_false_iff, decide_eq_false_iff_not]
  constructor
  · rintro ⟨⟨⟨a, b⟩, c⟩, d⟩; exact ⟨Ne.symm a, Ne.symm b, Ne.symm c, Ne.symm d⟩
  · rintro ⟨a, b, c, d⟩; exact ⟨⟨⟨Ne.symm a, Ne.symm b⟩, Ne.symm c⟩, Ne.symm d⟩

theorem randomTag_spec {sys : Nat → Bool} (hs : SysOk sys) (arr : Nat → BitVec 8) (k r : Nat) :
    insertRandomTag sys (exclusionMask arr k) r < 16 ∧ insertRandomTag sys (exclusionMask arr k) r ≠ 0 ∧
    insertRandomTag sys (exclusionMask arr k) r ≠ (u4ArrGet arr k).toNat ∧
    insertRandomTag sys (exclusionMask arr k) r ≠ (u4ArrGet arr (k + 1)).toNat ∧
    insertRandomTag sys (exclusionMask arr k) r ≠ (u4ArrGet arr (k + 2)).toNat := by
  obtain ⟨t, h1, h2, h3, h4, h5, h6⟩ := hs (u4ArrGet arr k).toNat (u4ArrGet arr (k + 1)).toNat (u4ArrGet arr (k + 2)).toNat
  obtain ⟨q1, q2, _⟩ := insertRandomTag_spec (sys := sys) (mask := exclusionMask arr k) (r := r)
    ⟨t, h1, (exclusionMask_testBit arr k t).mpr ⟨h2, h3, h4, h5⟩, h6⟩
  exact ⟨q1, (exclusionMask_testBit arr k _).mp q2⟩

/-! ### Slots -/

variable {g : Cfg} {ro : Ro} {ar : Nat → Nat} {calm : Bool} {D : Client} {h : List Ev} {s : Sys}

/-- A slot with tags: its address, and where it is. -/
structure SlotAt (ro : Ro) (p a c i k : Nat) : Prop where
  arena : a < ro.g.nArena
  cls : c < nClasses ro.g
  pos : 0 < c
  slab : i < ro.g.metaMax c
  slot : k < ro.g.slots c
  addr : p = slotAddr ro.g (ro.regionStart a c) c i k

theorem SlotAt.sizeClassOf (hro : RoOk ro) {p a c i k : Nat} (h : SlotAt ro p a c i k) : ro.sizeClassOf p = (a, c) := by
  refine hro.sizeClassOf h.arena h.cls (hro.region_cell h.arena h.cls ?_)
  rw [h.addr]
  refine slot_in_region hro h.arena h.cls h.slab h.slot ?_
  have := (classGeo ro.g h.cls).size_ge
  unfold inRange; omega

theorem SlotAt.slotOf (hro : RoOk ro) {p a c i k : Nat} (h : SlotAt ro p a c i k) : ro.slotOf p = (i, k) := by
  have hsz := (classGeo ro.g h.cls).size_ge
  have hin := slot_in_slab h.cls h.slot
  have e : p - ro.regionStart a c = ro.g.slabSize c * i + k * ro.g.slotSize c := by
    rw [h.addr, slotAddr_eq, Nat.mul_comm (ro.g.slabSize c) i]; omega
  unfold Ro.slotOf
  simp only [h.sizeClassOf hro, e, Prod.mk.injEq]
  have hlt : k * ro.g.slotSize c < ro.g.slabSize c := by omega
  rw [Nat.mul_add_mod, Nat.mod_eq_of_lt hlt, Nat.mul_add_div (by omega), Nat.div_eq_of_lt hlt]
  exact ⟨by omega, Nat.mul_div_cancel _ (by omega)⟩

theorem SlotAt.classSize (h : SlotAt ro p a c i k) : ro.g.classSize c ≠ 0 := fun e => by
  have := ((classGeo ro.g h.cls).zero_iff).mpr e
  have := h.pos
  omega

theorem SlotAt.unique (hro : RoOk ro) {p a c i k a' c' i' k' : Nat} (h : SlotAt ro p a c i k) (h' : SlotAt ro p a' c' i' k') :
    a = a' ∧ c = c' ∧ i = i' ∧ k = k' :=
  slotAddr_unique hro h.arena h.cls h'.arena h'.cls h.slab h.slot h'.slab h'.slot (h.addr.symm.trans h'.addr)

theorem SlotAt.disjoint (hro : RoOk ro) {p a c i k q a' c' i' k' x : Nat} (h : SlotAt ro p a c i k) (h' : SlotAt ro q a' c' i' k')
    (hx : inRange p (ro.g.slotSize c) x) (hx' : inRange q (ro.g.slotSize c') x) : p = q := by
  have h1 := hro.sizeClassOf h.arena h.cls (hro.region_cell h.arena h.cls (slot_in_region hro h.arena h.cls h.slab h.slot (h.addr ▸ hx)))
  have h2 := hro.sizeClassOf h'.arena h'.cls (hro.region_cell h'.arena h'.cls (slot_in_region hro h'.arena h'.cls h'.slab h'.slot (h'.addr ▸ hx')))
  rw [h1] at h2
  simp only [Prod.mk.injEq] at h2
  obtain ⟨rfl, rfl⟩ := h2
  obtain ⟨rfl, rfl⟩ := slot_disjoint h.cls h.slot h'.slot (h.addr ▸ hx) (h'.addr ▸ hx')
  rw [h.addr, h'.addr]

theorem SlotAt.mod (hro : RoOk ro) {p a c i k : Nat} (h : SlotAt ro p a c i k) : p % 16 = 0 := by
  rw [h.addr]
  exact Nat.mod_eq_zero_of_dvd (slot_dvd hro h.arena h.cls (by decide) (Nat.dvd_of_mod_eq_zero (classGeo ro.g h.cls).size_mod))

theorem SlotAt.granule (hro : RoOk ro) {p a c i k : Nat} (h : SlotAt ro p a c i k) (x : Nat) :
    (p / 16 ≤ x / 16 ∧ x / 16 < (p + ro.g.slotSize c) / 16) ↔ inRange p (ro.g.slotSize c) x := by
  have h1 := h.mod hro
  have h2 := (classGeo ro.g h.cls).size_mod
  unfold inRange
  omega

/-- The slot of a live small block. -/
theorem live_slot (hro : RoOk ro) {L : Nat → Option Info} {w : World} (l : Linked ro L w) {p : Nat} (hl : (L p).isSome = true) (hp : ro.inSlab p = true)
    (h0 : ro.g.classSize (ro.sizeClassOf p).2 ≠ 0) : ∃ a c i k, SlotAt ro p a c i k ∧ IsSmall ro w.σ p a c i k := by
  obtain ⟨j, hj⟩ := Option.isSome_iff_exists.mp hl
  obtain ⟨u, h1, _⟩ := l.usable hj
  rcases h1 with ⟨a, c, i, k, h1, _⟩ | ⟨gd, h1⟩
  · obtain ⟨h2, h3, _⟩ := h1.lt l.inv
    have hc := h1.cls hro l.inv
    refine ⟨a, c, i, k, ⟨h1.1, h1.2.1, ?_, h2, h3, h1.2.2.1⟩, h1⟩
    rw [hc] at h0
    rcases Nat.eq_zero_or_pos c with e | e
    · exact absurd (((classGeo ro.g h1.2.1).zero_iff).mp e) h0
    · exact e
  · rw [has_not_inSlab hro l.inv h1] at hp; cases hp

/-! ### Events -/

/-- What an event does to the live blocks. -/
structure EvFacts (h : List Ev) (e : Ev) : Prop where
  created : ∀ q, e.created = some q → live h q = none ∧ (live (e :: h) q).isSome = true ∧ e.freed ≠ some q
  freed : ∀ p, e.freed = some p → (live h p).isSome = true ∧ live (e :: h) p = none
  other : ∀ x, e.created ≠ some x → e.freed ≠ some x → (live (e :: h) x).isSome = (live h x).isSome

theorem Reach.event (hg : Good g ar) (r : Reach g ro ar calm D h s) {a : Act} {s' : Sys} {e : Ev} (ha : a.Ok calm) (hs : s.step ro ar a = .ok (s', e)) :
    EvFacts h e := by
  cases a with
  | store x v => cases hs; exact ⟨fun _ h => (by cases h), fun _ h => (by cases h), fun _ _ _ => rfl⟩
  | errno t e => cases hs; exact ⟨fun _ h => (by cases h), fun _ h => (by cases h), fun _ _ _ => rfl⟩
  | call t c chs =>
    obtain ⟨hok, he⟩ := ha
    simp only [Sys.step] at hs
    cases hc : s.call ro ar t c chs with
    | ok y =>
      obtain ⟨s1, x⟩ := y
      rw [hc] at hs
      cases hs
      have alloc : ∀ i, c.request = some i → (Ev.call t c x).created = x.block → (Ev.call t c x).freed = none → EvFacts h (.call t c x) := fun i hr h1 h2 => by
        refine ⟨fun q hq => ?_, fun p hp => ?_, fun y hy _ => ?_⟩
        · rw [h1] at hq
          refine ⟨c02_new_block hg r hok he hc hr hq, ?_, by rw [h2]; exact fun e => by cases e⟩
          show (liveStep _ _ _).isSome = _
          rw [liveStep_request hr hq, if_pos rfl]; rfl
        · rw [h2] at hp; cases hp
        · show (liveStep _ _ _).isSome = _
          cases hb : x.block with
          | none => cases c <;> first | (cases hr; done) | (simp only [liveStep, hr, hb])
          | some q =>
            rw [liveStep_request hr hb, if_neg]
            rintro rfl
            exact hy (h1.trans hb)
      have idle : liveStep (live h) (.call t c x) = live h → (Ev.call t c x).created = none → (Ev.call t c x).freed = none → EvFacts h (.call t c x) := fun h0 h1 h2 =>
        ⟨fun q hq => by (rw [h1] at hq; cases hq), fun q hq => by (rw [h2] at hq; cases hq), fun y _ _ => by
          show (liveStep _ _ _).isSome = _
          rw [h0]⟩
      cases c with
      | malloc n => exact alloc _ rfl rfl rfl
      | calloc n k => exact alloc _ rfl rfl rfl
      | posixMemalign al n => exact alloc _ rfl rfl rfl
      | alignedAlloc al n => exact alloc _ rfl rfl rfl
      | valloc n => exact alloc _ rfl rfl rfl
      | pvalloc n => exact alloc _ rfl rfl rfl
      | usableSize p => exact idle (by simp only [liveStep, Call.request]) rfl rfl
      | objectSize p => exact idle (by simp only [liveStep, Call.request]) rfl rfl
      | objectSizeFast p => exact idle (by simp only [liveStep, Call.request]) rfl rfl
      | trim => exact idle (by simp only [liveStep, Call.request]) rfl rfl
      | mallinfo => exact idle (by simp only [liveStep, Call.request]) rfl rfl
      | free p =>
        refine ⟨fun q hq => ?_, fun q hq => ?_, fun y _ hy => ?_⟩
        · simp [Ev.created, Call.request] at hq
        · simp only [Ev.freed] at hq
          split at hq
          · cases hq
          · rename_i h0
            cases hq
            refine ⟨?_, ?_⟩
            · cases hl : live h p with
              | some i => rfl
              | none =>
                obtain ⟨m, h1⟩ := c04_free_detected (t := t) hg r he hok h0 hl
                rw [hc] at h1; cases h1
            · show liveStep _ _ _ = _
              simp only [liveStep, if_true]
        · show (liveStep _ _ _).isSome = _
          simp only [liveStep]
          split
          · rename_i e
            subst e
            simp only [Ev.freed] at hy
            split at hy
            · rename_i h0; subst h0
              obtain ⟨w, f, _⟩ := r.fits hg
              rw [(f.linked.nobody).mp (blk_zero (r.roOk hg).1 f.linked.inv)]
            · exact absurd rfl hy
          · rfl
      | freeSized p n =>
        refine ⟨fun q hq => ?_, fun q hq => ?_, fun y _ hy => ?_⟩
        · simp [Ev.created, Call.request] at hq
        · simp only [Ev.freed] at hq
          split at hq
          · cases hq
          · rename_i h0
            cases hq
            refine ⟨?_, ?_⟩
            · cases hl : live h p with
              | some i => rfl
              | none =>
                obtain ⟨m, h1⟩ := c04_free_sized_detected (t := t) hg r he hok.1 hok.2 h0 hl
                rw [hc] at h1; cases h1
            · show liveStep _ _ _ = _
              simp only [liveStep, if_true]
        · show (liveStep _ _ _).isSome = _
          simp only [liveStep]
          split
          · rename_i e
            subst e
            simp only [Ev.freed] at hy
            split at hy
            · rename_i h0; subst h0
              obtain ⟨w, f, _⟩ := r.fits hg
              rw [(f.linked.nobody).mp (blk_zero (r.roOk hg).1 f.linked.inv)]
            · exact absurd rfl hy
          · rfl
      | realloc p n =>
        cases hb : x.block with
        | none =>
          exact idle (by simp only [liveStep, hb]) (by simp only [Ev.created, hb]) (by simp only [Ev.freed, hb])
        | some q =>
          by_cases h0 : p = 0
          · subst h0
            have hq0 : q ≠ 0 := by
              rintro rfl
              obtain ⟨o, rfl, h1⟩ := (r.called hg hok he hc).choose_spec.choose_spec.1.res
              unfold retPtr Ret.block at hb
              simp only at hb
              split at hb
              · cases hb
              · rename_i h2; exact h2 (Option.some.inj hb)
            have hcr : (Ev.call t (.realloc 0 n) x).created = some q := by simp only [Ev.created, hb, if_neg hq0]
            have hfr : (Ev.call t (.realloc 0 n) x).freed = none := by simp only [Ev.freed, hb, or_true, if_true]
            have hlv : liveStep (live h) (.call t (.realloc 0 n) x) = fun y => if y = q then some ⟨n, none⟩ else live h y := by
              simp only [liveStep, hb, if_true]
            refine ⟨fun y hy => ?_, fun y hy => ?_, fun y hy _ => ?_⟩
            · rw [hcr] at hy; cases hy
              refine ⟨(c02_realloc_block hg r hok he hc hb (Or.inl rfl)).resolve_left hq0, ?_, by rw [hfr]; exact fun e => by cases e⟩
              show (liveStep _ _ _).isSome = _
              rw [hlv]; simp
            · rw [hfr] at hy; cases hy
            · show (liveStep _ _ _).isSome = _
              rw [hlv]
              simp only
              rw [if_neg (by rintro rfl; exact hy hcr)]
          · cases hl : live h p with
            | none =>
              obtain ⟨m, h1⟩ | h1 | ⟨s2, q2, h1, h2, h3⟩ := c46_realloc (t := t) hg r he hok.1 hok.2 h0 hl
              · rw [hc] at h1; cases h1
              · rw [hc] at h1; cases h1
              · rw [hc] at h1; cases h1
                have hqp : q = p := by
                  simp only [Ret.block] at hb
                  split at hb
                  · cases hb
                  · cases hb
                    rcases h3 with h3 | ⟨h3, _⟩
                    · contradiction
                    · exact h3
                subst hqp
                exact idle (funext h2) (by simp only [Ev.created, hb, if_true]) (by simp only [Ev.freed, hb, true_or, if_true])
            | some j =>
              have hlv : liveStep (live h) (.call t (.realloc p n) x) =
                  fun y => if y = q then some ⟨n, if q = p then j.align else none⟩ else if y = p then none else live h y := by
                simp only [liveStep, hb, if_neg h0, hl]
              by_cases hqp : q = p
              · subst hqp
                have hcr : (Ev.call t (.realloc q n) x).created = none := by simp only [Ev.created, hb, if_true]
                have hfr : (Ev.call t (.realloc q n) x).freed = none := by simp only [Ev.freed, hb, true_or, if_true]
                refine ⟨fun y hy => by (rw [hcr] at hy; cases hy), fun y hy => by (rw [hfr] at hy; cases hy), fun y _ _ => ?_⟩
                show (liveStep _ _ _).isSome = _
                rw [hlv]
                simp only
                split
                · rename_i e; rw [e, hl]; rfl
                · rfl
              · have hcr : (Ev.call t (.realloc p n) x).created = some q := by simp only [Ev.created, hb, if_neg hqp]
                have hfr : (Ev.call t (.realloc p n) x).freed = some p := by simp only [Ev.freed, hb, hqp, h0, or_self, if_false]
                refine ⟨fun y hy => ?_, fun y hy => ?_, fun y hy hy' => ?_⟩
                · rw [hcr] at hy; cases hy
                  refine ⟨(c02_realloc_block hg r hok he hc hb (Or.inr (by rw [hl]; rfl))).resolve_left hqp, ?_, by rw [hfr]; exact fun e => hqp (Option.some.inj e).symm⟩
                  show (liveStep _ _ _).isSome = _
                  rw [hlv]; simp
                · rw [hfr] at hy; cases hy
                  refine ⟨by rw [hl]; rfl, ?_⟩
                  show liveStep _ _ _ = _
                  rw [hlv]
                  simp only [if_true]
                  rw [if_neg (fun e => hqp e.symm)]
                · show (liveStep _ _ _).isSome = _
                  rw [hlv]
                  simp only
                  rw [if_neg (by rintro rfl; exact hy hcr), if_neg (by rintro rfl; exact hy' hfr)]
    | fatal m => rw [hc] at hs; cases hs
    | segv => rw [hc] at hs; cases hs
    | ub m => rw [hc] at hs; cases hs
    | hang => rw [hc] at hs; cases hs

/-! ### The invariant -/

/-- The tags of the pointers that were returned when blocks at address `p` were created, the last one first. -/
def tagsAt (p : Nat) (h : List (Ev × Nat)) : List Nat := h.filterMap fun et => if et.1.created = some p then some et.2 else none

theorem tagsAt_cons (p : Nat) (e : Ev) (t : Nat) (h : List (Ev × Nat)) :
    tagsAt p ((e, t) :: h) = if e.created = some p then t :: tagsAt p h else tagsAt p h := by
  unfold tagsAt
  rw [List.filterMap_cons]
  by_cases hc : e.created = some p
  · simp only [if_pos hc]
  · simp only [if_neg hc]

/-- Blocks at this address have tags: it is in the slab region, and not in an area for blocks of size 0. -/
def Ro.tagged (ro : Ro) (p : Nat) : Prop := ro.inSlab p = true ∧ ro.g.classSize (ro.sizeClassOf p).2 ≠ 0

theorem SlotAt.tagged (hro : RoOk ro) {p a c i k : Nat} (h : SlotAt ro p a c i k) : ro.tagged p := by
  refine ⟨?_, by rw [h.sizeClassOf hro]; exact h.classSize⟩
  have h1 := (classGeo ro.g h.cls).size_ge
  have h2 := hro.region_cell (x := p) h.arena h.cls (by
    rw [h.addr]; exact slot_in_region hro h.arena h.cls h.slab h.slot (by unfold inRange; omega))
  have h3 := hro.cell_hi h.arena h.cls
  have h4 := RoOk.cell_lo ro a c
  unfold Ro.inSlab
  unfold inRange at h2
  simp only [Bool.and_eq_true, decide_eq_true_eq]
  omega

structure TInv (ro : Ro) (h : List (Ev × Nat)) (T : Tags) : Prop where
  own : ∀ p a c i k, SlotAt ro p a c i k → (u4ArrGet (T.arr a c i) (k + 1)).toNat = (tagsAt p h).headD 0
  edge : ∀ a c i j, a < ro.g.nArena → c < nClasses ro.g → 0 < c → i < ro.g.metaMax c → (j = 0 ∨ ro.g.slots c < j) → u4ArrGet (T.arr a c i) j = 0#8
  mem : ∀ p a c i k x, SlotAt ro p a c i k → inRange p (ro.g.slotSize c) x →
    T.tag (x / 16) = if (live (h.map Prod.fst) p).isSome = true then (tagsAt p h).headD 0 else 0
  tags : ∀ p a c i k, SlotAt ro p a c i k → ∀ t, t ∈ tagsAt p h → t ≠ 0 ∧ t < 16
  chain : ∀ p a c i k, SlotAt ro p a c i k → (tagsAt p h).IsChain (· ≠ ·)
  next : ∀ p q a c i k, SlotAt ro p a c i k → SlotAt ro q a c i (k + 1) → (tagsAt p h).headD 0 = (tagsAt q h).headD 0 → (tagsAt p h).headD 0 = 0
  live : ∀ p a c i k, SlotAt ro p a c i k → (live (h.map Prod.fst) p).isSome = true → tagsAt p h ≠ []
  out : ∀ x, (∀ p a c i k, SlotAt ro p a c i k → ¬ inRange p (ro.g.slotSize c) x) → T.tag (x / 16) = 0
  slot : ∀ p, ro.tagged p → tagsAt p h ≠ [] → ∃ a c i k, SlotAt ro p a c i k

theorem TInv.init (ro : Ro) : TInv ro [] (Tags.init ro) where
  own _ _ _ _ _ _ := by simp [Tags.init, u4ArrGet, tagsAt]
  edge _ _ _ _ _ _ _ _ _ := by simp [Tags.init, u4ArrGet]
  mem _ _ _ _ _ _ _ _ := by simp [Tags.init, HM.live]
  tags _ _ _ _ _ _ _ ht := by cases ht
  chain _ _ _ _ _ _ := .nil
  next _ _ _ _ _ _ _ _ _ := rfl
  live _ _ _ _ _ _ hl := by simp [HM.live] at hl
  out _ _ := rfl
  slot _ _ hn := absurd rfl hn

/-- The pages of a live slot are accessible. -/
theorem SlotAt.rw (hro : RoOk ro) {L : Nat → Option Info} {w : World} (l : Linked ro L w) {p a c i k x : Nat} (hs : SlotAt ro p a c i k)
    (hl : (L p).isSome = true) (hx : inRange p (ro.g.slotSize c) x) : w.σ.vm.prot (x / PAGE) = .rw := by
  obtain ⟨h1, h2⟩ := hs.tagged hro
  obtain ⟨a', c', i', k', h3, h4⟩ := live_slot hro l hl h1 h2
  obtain ⟨rfl, rfl, rfl, rfl⟩ := hs.unique hro h3
  obtain ⟨_, _, h5⟩ := h4.lt l.inv
  exact (l.inv.clsVm a c hs.arena hs.cls).rw i x h5 hs.classSize (slot_range_slab hs.cls hs.slot (hs.addr ▸ hx))

theorem headD_ne {l : List Nat} {t : Nat} (h : t ≠ l.headD 0) (hc : l.IsChain (· ≠ ·)) : (t :: l).IsChain (· ≠ ·) := by
  cases l with
  | nil => exact .singleton t
  | cons a l => exact .cons_cons h hc

section
variable {sys : Nat → Bool} {hh : List (Ev × Nat)} {T : Tags}

/-- The tags after an event. -/
structure Stepped (ro : Ro) (sys : Nat → Bool) (r : Nat) (T : Tags) (e : Ev) (before after : Nat → Prot) (T' : Tags) (tag : Nat) : Prop where
  arr : ∀ a c i, (∀ q k, e.created = some q → ¬ SlotAt ro q a c i k) → T'.arr a c i = T.arr a c i
  new : ∀ q a c i k, e.created = some q → SlotAt ro q a c i k → tag = insertRandomTag sys (exclusionMask (T.arr a c i) k) r ∧
    T'.arr a c i = u4ArrSet (T.arr a c i) (k + 1) (BitVec.ofNat 8 tag)
  mem : ∀ p a c i k x, SlotAt ro p a c i k → inRange p (ro.g.slotSize c) x → T'.tag (x / 16) =
    if before (x / PAGE) = .rw ∧ after (x / PAGE) = .none then 0 else if e.freed = some p then 0 else if e.created = some p then tag else T.tag (x / 16)
  out : ∀ x, (∀ p a c i k, SlotAt ro p a c i k → ¬ inRange p (ro.g.slotSize c) x) → T.tag (x / 16) = 0 → T'.tag (x / 16) = 0

theorem stepped (hro : RoOk ro) {e : Ev} (hc : ∀ q, e.created = some q → ro.tagged q → ∃ a c i k, SlotAt ro q a c i k)
    (hf : ∀ q, e.freed = some q → ro.tagged q → ∃ a c i k, SlotAt ro q a c i k) (r : Nat) (T : Tags) (before after : Nat → Prot) :
    Stepped ro sys r T e before after (T.step ro sys r e before after).1 (T.step ro sys r e before after).2 := by
  -- allocation
  obtain ⟨T1, tag, e1, h1, h2, h3, h3o⟩ : ∃ T1 tag, (e.created.map (T.alloc ro sys r)).getD (T, 0) = (T1, tag) ∧
      (∀ a c i, (∀ q k, e.created = some q → ¬ SlotAt ro q a c i k) → T1.arr a c i = T.arr a c i) ∧
      (∀ q a c i k, e.created = some q → SlotAt ro q a c i k → tag = insertRandomTag sys (exclusionMask (T.arr a c i) k) r ∧
        T1.arr a c i = u4ArrSet (T.arr a c i) (k + 1) (BitVec.ofNat 8 tag)) ∧
      (∀ p a c i k x, SlotAt ro p a c i k → inRange p (ro.g.slotSize c) x → T1.tag (x / 16) = if e.created = some p then tag else T.tag (x / 16)) ∧
      ∀ x, (∀ p a c i k, SlotAt ro p a c i k → ¬ inRange p (ro.g.slotSize c) x) → T1.tag (x / 16) = T.tag (x / 16) := by
    cases hcr : e.created with
    | none => exact ⟨T, 0, rfl, fun _ _ _ _ => rfl, fun _ _ _ _ _ h => (by cases h), fun _ _ _ _ _ _ _ _ => by (rw [if_neg (fun h => by cases h)]), fun _ _ => rfl⟩
    | some q =>
      simp only [Option.map_some, Option.getD_some]
      by_cases ht : ro.tagged q
      · obtain ⟨a, c, i, k, hs⟩ := hc q hcr ht
        have e2 : T.alloc ro sys r q = T.tagSlot ro sys r q := by
          unfold Tags.alloc; rw [if_pos (show _ ∧ _ from ht)]
        refine ⟨(T.tagSlot ro sys r q).1, (T.tagSlot ro sys r q).2, e2, ?_, ?_, ?_, ?_⟩
        · intro a' c' i' h
          simp only [Tags.tagSlot, hs.sizeClassOf hro, hs.slotOf hro, Tags.setMem]
          rw [if_neg]
          rintro ⟨rfl, rfl, rfl⟩
          exact h q k rfl hs
        · intro q' a' c' i' k' hq hs'
          cases hq
          obtain ⟨rfl, rfl, rfl, rfl⟩ := hs.unique hro hs'
          simp only [Tags.tagSlot, hs.sizeClassOf hro, hs.slotOf hro, Tags.setMem, and_self, if_true]
        · intro p a' c' i' k' x hp hx
          simp only [Tags.tagSlot, hs.sizeClassOf hro, hs.slotOf hro, Tags.setMem]
          simp only [hs.granule hro, Option.some.injEq]
          by_cases hqp : q = p
          · subst hqp
            obtain ⟨rfl, rfl, rfl, rfl⟩ := hs.unique hro hp
            rw [if_pos hx, if_pos rfl]
          · rw [if_neg (fun hx' => hqp (hs.disjoint hro hp hx' hx)), if_neg hqp]
        · intro x hx
          simp only [Tags.tagSlot, hs.sizeClassOf hro, hs.slotOf hro, Tags.setMem]
          simp only [hs.granule hro]
          rw [if_neg (hx q a c i k hs)]
      · have e2 : T.alloc ro sys r q = (T, 0) := by
          unfold Tags.alloc; rw [if_neg (show ¬ (_ ∧ _) from ht)]
        refine ⟨T, 0, e2, fun _ _ _ _ => rfl, ?_, ?_, fun _ _ => rfl⟩
        · intro q' a c i k hq hs
          cases hq
          exact absurd (hs.tagged hro) ht
        · intro p a c i k x hp _
          rw [if_neg]
          intro hq
          cases hq
          exact ht (hp.tagged hro)
  -- deallocation
  obtain ⟨T2, e2, h4, h5, h5o⟩ : ∃ T2, (e.freed.map (T1.free ro)).getD T1 = T2 ∧ T2.arr = T1.arr ∧
      (∀ p a c i k x, SlotAt ro p a c i k → inRange p (ro.g.slotSize c) x → T2.tag (x / 16) = if e.freed = some p then 0 else T1.tag (x / 16)) ∧
      ∀ x, (∀ p a c i k, SlotAt ro p a c i k → ¬ inRange p (ro.g.slotSize c) x) → T2.tag (x / 16) = T1.tag (x / 16) := by
    cases hfr : e.freed with
    | none => exact ⟨T1, rfl, rfl, fun _ _ _ _ _ _ _ _ => by (rw [if_neg (fun h => by cases h)]), fun _ _ => rfl⟩
    | some q =>
      simp only [Option.map_some, Option.getD_some]
      by_cases ht : ro.tagged q
      · obtain ⟨a, c, i, k, hs⟩ := hf q hfr ht
        refine ⟨_, rfl, ?_, ?_, ?_⟩
        · unfold Tags.free; rw [if_pos (show _ ∧ _ from ht)]; rfl
        · intro p a' c' i' k' x hp hx
          unfold Tags.free
          rw [if_pos (show _ ∧ _ from ht)]
          simp only [hs.sizeClassOf hro, Tags.setMem]
          simp only [hs.granule hro, Option.some.injEq]
          by_cases hqp : q = p
          · subst hqp
            obtain ⟨rfl, rfl, rfl, rfl⟩ := hs.unique hro hp
            rw [if_pos hx, if_pos rfl]
          · rw [if_neg (fun hx' => hqp (hs.disjoint hro hp hx' hx)), if_neg hqp]
        · intro x hx
          unfold Tags.free
          rw [if_pos (show _ ∧ _ from ht)]
          simp only [hs.sizeClassOf hro, Tags.setMem]
          simp only [hs.granule hro]
          rw [if_neg (hx q a c i k hs)]
      · refine ⟨T1, ?_, rfl, ?_, fun _ _ => rfl⟩
        · unfold Tags.free; rw [if_neg (show ¬ (_ ∧ _) from ht)]
        · intro p a c i k x hp _
          rw [if_neg]
          intro hq
          cases hq
          exact ht (hp.tagged hro)
  have e3 : T.step ro sys r e before after = (T2.remap before after, tag) := by
    unfold Tags.step
    rw [e1]
    simp only
    rw [e2]
  rw [e3]
  refine ⟨fun a c i h => ?_, fun q a c i k hq hs => ?_, fun p a c i k x hs hx => ?_, fun x hx h0 => ?_⟩
  · show T2.arr a c i = _
    rw [h4, h1 a c i h]
  · show _ ∧ T2.arr a c i = _
    rw [h4]; exact h2 q a c i k hq hs
  · simp only [Tags.remap]
    rw [show x / 16 * 16 / PAGE = x / PAGE by omega]
    simp only [Bool.and_eq_true, decide_eq_true_eq]
    rw [h5 p a c i k x hs hx, h3 p a c i k x hs hx]
  · simp only [Tags.remap]
    rw [h5o x hx, h3o x hx, h0]
    split <;> rfl

/-- An event changes the tags. `hs`: a block that is created or freed, and has tags, is in a slot. `hk`: access to the memory of live blocks is not taken away. -/
theorem TInv.move (hro : RoOk ro) (hsys : SysOk sys) (I : TInv ro hh T) {e : Ev} (E : EvFacts (hh.map Prod.fst) e) {before after : Nat → Prot}
    (hcs : ∀ q, e.created = some q → ro.tagged q → ∃ a c i k, SlotAt ro q a c i k) (hfs : ∀ q, e.freed = some q → ro.tagged q → ∃ a c i k, SlotAt ro q a c i k)
    (hk : ∀ p a c i k x, SlotAt ro p a c i k → (HM.live (e :: hh.map Prod.fst) p).isSome = true → inRange p (ro.g.slotSize c) x →
      ¬ (before (x / PAGE) = .rw ∧ after (x / PAGE) = .none)) (r : Nat) :
    TInv ro ((e, (T.step ro sys r e before after).2) :: hh) (T.step ro sys r e before after).1 := by
  have S := stepped (sys := sys) (e := e) hro hcs hfs r T before after
  generalize (T.step ro sys r e before after).1 = T' at *
  generalize (T.step ro sys r e before after).2 = tag at *
  -- the new tag
  have N : ∀ q a c i k, e.created = some q → SlotAt ro q a c i k → tag < 16 ∧ tag ≠ 0 ∧ tag ≠ (u4ArrGet (T.arr a c i) k).toNat ∧
      tag ≠ (tagsAt q hh).headD 0 ∧ tag ≠ (u4ArrGet (T.arr a c i) (k + 2)).toNat := fun q a c i k hq hs => by
    rw [(S.new q a c i k hq hs).1, ← I.own q a c i k hs]
    exact randomTag_spec hsys _ _ _
  have N2 : ∀ q a c i k, e.created = some q → SlotAt ro q a c i k → ∀ j, (u4ArrGet (T'.arr a c i) j).toNat =
      if j = k + 1 then tag else (u4ArrGet (T.arr a c i) j).toNat := fun q a c i k hq hs j => by
    have h1 := (N q a c i k hq hs).1
    have h2 : (BitVec.ofNat 8 tag).toNat = tag := by rw [BitVec.toNat_ofNat]; exact Nat.mod_eq_of_lt (by omega)
    rw [(S.new q a c i k hq hs).2, u4_get_set _ _ _ _ (by rw [h2]; exact h1)]
    split <;> simp [*]
  have cr : ∀ p, tagsAt p ((e, tag) :: hh) = if e.created = some p then tag :: tagsAt p hh else tagsAt p hh := fun p => tagsAt_cons p e tag hh
  refine ⟨?_, ?_, ?_, ?_, ?_, ?_, ?_, fun x hx => S.out x hx (I.out x hx), ?_⟩
  · intro p a c i k hs
    rw [cr]
    by_cases hex : ∃ q k', e.created = some q ∧ SlotAt ro q a c i k'
    · obtain ⟨q, k', hq, hs'⟩ := hex
      rw [N2 q a c i k' hq hs']
      by_cases hk : k = k'
      · subst hk
        have : p = q := hs.addr.trans hs'.addr.symm
        subst this
        rw [if_pos rfl, if_pos hq]; rfl
      · rw [if_neg (by omega), if_neg, I.own p a c i k hs]
        rw [hq]
        intro h1
        cases h1
        exact hk (hs.unique hro hs').2.2.2
    · rw [S.arr a c i (fun q k' hq hs' => hex ⟨q, k', hq, hs'⟩), if_neg (fun h1 => hex ⟨p, k, h1, hs⟩), I.own p a c i k hs]
  · intro a c i j ha hc h0 hi hj
    by_cases hex : ∃ q k', e.created = some q ∧ SlotAt ro q a c i k'
    · obtain ⟨q, k', hq, hs'⟩ := hex
      have h1 := N2 q a c i k' hq hs' j
      have h2 := hs'.slot
      rw [if_neg (by omega), I.edge a c i j ha hc h0 hi hj] at h1
      exact BitVec.eq_of_toNat_eq h1
    · rw [S.arr a c i (fun q k' hq hs' => hex ⟨q, k', hq, hs'⟩)]
      exact I.edge a c i j ha hc h0 hi hj
  · intro p a c i k x hs hx
    rw [S.mem p a c i k x hs hx, cr]
    by_cases hl : (HM.live (e :: hh.map Prod.fst) p).isSome = true
    · rw [if_neg (hk p a c i k x hs hl hx)]
      rw [if_neg (fun h1 => by rw [(E.freed p h1).2] at hl; cases hl)]
      rw [if_pos (show (HM.live (((e, tag) :: hh).map Prod.fst) p).isSome = true from hl)]
      by_cases hcr : e.created = some p
      · rw [if_pos hcr, if_pos hcr]; rfl
      · rw [if_neg hcr, if_neg hcr, I.mem p a c i k x hs hx, if_pos]
        rw [← E.other p hcr (fun h1 => by rw [(E.freed p h1).2] at hl; cases hl)]
        exact hl
    · rw [if_neg (show ¬ (HM.live (((e, tag) :: hh).map Prod.fst) p).isSome = true from hl)]
      split
      · rfl
      · by_cases hfr : e.freed = some p
        · rw [if_pos hfr]
        · have hcr : e.created ≠ some p := fun h1 => hl (E.created p h1).2.1
          rw [if_neg hfr, if_neg hcr, I.mem p a c i k x hs hx, if_neg]
          rw [← E.other p hcr hfr]
          exact hl
  · intro p a c i k hs t ht
    rw [cr] at ht
    by_cases hcr : e.created = some p
    · rw [if_pos hcr] at ht
      rcases List.mem_cons.mp ht with rfl | ht
      · have := N p a c i k hcr hs; exact ⟨this.2.1, this.1⟩
      · exact I.tags p a c i k hs t ht
    · rw [if_neg hcr] at ht
      exact I.tags p a c i k hs t ht
  · intro p a c i k hs
    rw [cr]
    by_cases hcr : e.created = some p
    · rw [if_pos hcr]
      exact headD_ne (N p a c i k hcr hs).2.2.2.1 (I.chain p a c i k hs)
    · rw [if_neg hcr]
      exact I.chain p a c i k hs
  · intro p q a c i k hs hs' heq
    rw [cr, cr] at heq
    rw [cr]
    have hne : p ≠ q := by
      rintro rfl
      have := (hs.unique hro hs').2.2.2
      omega
    by_cases h1 : e.created = some p
    · have h2 : e.created ≠ some q := by rw [h1]; exact fun h => hne (Option.some.inj h)
      rw [if_pos h1, if_neg h2, ← I.own q a c i (k + 1) hs'] at heq
      exact absurd heq (N p a c i k h1 hs).2.2.2.2
    · rw [if_neg h1] at heq ⊢
      by_cases h2 : e.created = some q
      · rw [if_pos h2, ← I.own p a c i k hs] at heq
        exact absurd heq.symm (N q a c i (k + 1) h2 hs').2.2.1
      · rw [if_neg h2] at heq
        exact I.next p q a c i k hs hs' heq
  · intro p a c i k hs hl
    rw [cr]
    by_cases hcr : e.created = some p
    · rw [if_pos hcr]; exact fun h => by cases h
    · rw [if_neg hcr]
      refine I.live p a c i k hs ?_
      rw [← E.other p hcr (fun h1 => by
        rw [show HM.live (((e, tag) :: hh).map Prod.fst) p = HM.live (e :: hh.map Prod.fst) p from rfl, (E.freed p h1).2] at hl; cases hl)]
      exact hl
  · intro p ht hn
    rw [cr] at hn
    by_cases hcr : e.created = some p
    · exact hcs p hcr ht
    · rw [if_neg hcr] at hn
      exact I.slot p ht hn

theorem TInv.step (hro : RoOk ro) (hsys : SysOk sys) (I : TInv ro hh T) {e : Ev} (E : EvFacts (hh.map Prod.fst) e) {w w' : World}
    (l : Linked ro (HM.live (hh.map Prod.fst)) w) (l' : Linked ro (HM.live (e :: hh.map Prod.fst)) w') (r : Nat) :
    TInv ro ((e, (T.step ro sys r e w.σ.vm.prot w'.σ.vm.prot).2) :: hh) (T.step ro sys r e w.σ.vm.prot w'.σ.vm.prot).1 :=
  I.move hro hsys E
    (fun q hq ht => by
      obtain ⟨a, c, i, k, h1, _⟩ := live_slot hro l' (E.created q hq).2.1 ht.1 ht.2
      exact ⟨a, c, i, k, h1⟩)
    (fun q hq ht => by
      obtain ⟨a, c, i, k, h1, _⟩ := live_slot hro l (E.freed q hq).1 ht.1 ht.2
      exact ⟨a, c, i, k, h1⟩)
    (fun _ _ _ _ _ _ hs hl hx h1 => by rw [hs.rw hro l' hl hx] at h1; cases h1.2) r

theorem TReach.reach (r : TReach g ro ar calm D sys hh s T) : Reach g ro ar calm D (hh.map Prod.fst) s := by
  induction r with
  | init _ h1 h2 => exact .init h1 h2
  | step r _ ha _ hd hs ih => exact .step ih ha hd hs
  | other _ pg pr data hp ih => exact .other ih pg pr data hp

theorem TReach.inv (hg : Good g ar) (hsys : SysOk sys) (r : TReach g ro ar calm D sys hh s T) : TInv ro hh T := by
  induction r with
  | init _ _ _ => exact TInv.init ro
  | @step hh s s' T a e r hr ha hon hd hs ih =>
    obtain ⟨hro, _⟩ := hr.reach.roOk hg
    obtain ⟨w, f, _⟩ := hr.reach.fits hg
    obtain ⟨w', f', _⟩ := (Reach.step hr.reach ha hd hs).fits hg
    have h1 := ih.step (w := w) (w' := w') hro hsys (hr.reach.event hg ha hs) f.linked f'.linked r
    rw [f.σ, f'.σ] at h1
    exact h1
  | @other hh s T hr pg pr data hp ih =>
    have e1 : ∀ p, tagsAt p ((Ev.foreign pg (pr != .unmapped), 0) :: hh) = tagsAt p hh := fun p => by rw [tagsAt_cons]; exact if_neg nofun
    have e2 : HM.live (((Ev.foreign pg (pr != .unmapped), 0) :: hh).map Prod.fst) = HM.live (hh.map Prod.fst) := rfl
    constructor
    · simpa only [e1] using ih.own
    · exact ih.edge
    · simpa only [e1, e2] using ih.mem
    · simpa only [e1] using ih.tags
    · simpa only [e1] using ih.chain
    · simpa only [e1] using ih.next
    · simpa only [e1, e2] using ih.live
    · exact ih.out
    · simpa only [e1] using ih.slot
end

end HM
