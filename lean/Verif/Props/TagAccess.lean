import Verif.Props.Mte
/-
C67: with memory tagging, neither a program without memory errors nor `realloc` itself meets memory with another tag than its pointer.
-/
namespace HM

variable {g : Cfg} {ro : Ro} {ar : Nat → Nat} {calm : Bool} {D : Client} {sys : Nat → Bool} {h : List (Ev × Nat)} {s s' : Sys} {T : Tags}

/-- A usable byte of a live block lies in the block's slot, or outside of the slab region. -/
theorem usable_place_of (hro : RoOk ro) {w : World} {p u x : Nat} (hi : GInv ro w) (he : w.G.eff p = none) (hu : UsableIs ro w p u) (h1 : p ≤ x) (h2 : x < p + u) :
    (∃ a c i k, SlotAt ro p a c i k ∧ inRange p (ro.g.slotSize c) x) ∨
    (¬ ro.tagged p ∧ ∀ q a c i k, SlotAt ro q a c i k → ¬ inRange q (ro.g.slotSize c) x) := by
  rcases hu.extent_of hi he h1 (x := x) (by omega) with ⟨a, c, i, k, k1, k2⟩ | k1
  · refine Or.inl ⟨a, c, i, k, ?_, k2⟩
    obtain ⟨g2, g3, _⟩ := k1.lt hi
    refine ⟨k1.1, k1.2.1, Nat.pos_of_ne_zero fun e => ?_, g2, g3, k1.2.2.1⟩
    rcases hu with ⟨a', c', i', k', k3, rfl⟩ | ⟨gd, k3⟩
    · obtain ⟨_, rfl, _⟩ := k1.uniq hro hi k3
      rw [if_pos (((classGeo ro.g k1.2.1).zero_iff).mp e)] at h2
      omega
    · have := has_not_inSlab hro hi k3
      rw [k1.inSlab hro hi] at this
      cases this
  · refine Or.inr ⟨fun ht => ?_, fun q a c i k hs hx => ?_⟩
    · rcases hu with ⟨a', c', i', k', k3, rfl⟩ | ⟨gd, k3⟩
      · have k5 := (usable_le ro c').resolve_right (not_not.mpr k3.2.1)
        rw [k3.own hro hi (x := x) (by unfold inRange; omega)] at k1
        cases k1
      · have := has_not_inSlab hro hi k3
        rw [ht.1] at this
        cases this
    · have h3 := hro.region_cell (x := x) hs.arena hs.cls (slot_in_region hro hs.arena hs.cls hs.slab hs.slot (hs.addr ▸ hx))
      have h4 := hro.cell_hi hs.arena hs.cls
      have h5 := RoOk.cell_lo ro a c
      have h6 : ro.inSlab x = true := by
        unfold Ro.inSlab
        unfold inRange at h3
        simp only [Bool.and_eq_true, decide_eq_true_eq]
        omega
      rw [(inSlab_iff hro hi x).mp h6] at k1
      cases k1

theorem usable_place (hro : RoOk ro) {L : Nat → Option Info} {w : World} (l : Linked ro L w) {p u x : Nat} (hu : UsableIs ro w p u) (h1 : p ≤ x) (h2 : x < p + u) :
    (∃ a c i k, SlotAt ro p a c i k ∧ inRange p (ro.g.slotSize c) x) ∨
    (¬ ro.tagged p ∧ ∀ q a c i k, SlotAt ro q a c i k → ¬ inRange q (ro.g.slotSize c) x) := usable_place_of hro l.inv (l.eff p) hu h1 h2

theorem alloc_tagged {r q : Nat} (h : ro.tagged q) : T.alloc ro sys r q = T.tagSlot ro sys r q := if_pos h

theorem alloc_untagged {r q : Nat} (h : ¬ ro.tagged q) : T.alloc ro sys r q = (T, 0) := if_neg h

/-- The pointer to a live block was returned with a tag; it is 0 if the block is not in a slab with tags. -/
theorem TReach.untagged (hg : Good g ar) (r : TReach g ro ar calm D sys h s T) (p : Nat) :
    ((live (h.map Prod.fst) p).isSome = true → tagsAt p h ≠ []) ∧ (¬ ro.tagged p → ∀ t, t ∈ tagsAt p h → t = 0) := by
  induction r with
  | init _ _ _ => exact ⟨fun hl => by simp [HM.live] at hl, fun _ _ ht => by cases ht⟩
  | @step hh s s' T a e r hr ha hon hd hs ih =>
    have E := hr.reach.event hg ha hs
    rw [tagsAt_cons]
    refine ⟨fun hl => ?_, fun ht t hm => ?_⟩
    · split
      · exact List.cons_ne_nil _ _
      · rename_i hc
        refine ih.1 ?_
        rw [List.map_cons] at hl
        by_cases hf : e.freed = some p
        · rw [(E.freed p hf).2] at hl; cases hl
        · rw [← E.other p hc hf]; exact hl
    · split at hm
      · rename_i hc
        rcases List.mem_cons.mp hm with rfl | hm
        · unfold Tags.step
          simp only [hc, Option.map_some, Option.getD_some]
          rw [alloc_untagged ht]
        · exact ih.2 ht t hm
      · exact ih.2 ht t hm
  | @other hh s T hr pg pr data hp ih =>
    rw [tagsAt_cons, if_neg nofun]
    exact ih

/-- C67. Every usable byte of a live block, small or large, has the tag of the pointer that was returned for the block, so the program's accesses to its own blocks never
fault. -/
theorem c67_no_fault (hg : Good g ar) (hsys : SysOk sys) (r : TReach g ro ar calm D sys h s T) {p u : Nat} (hl : (live (h.map Prod.fst) p).isSome)
    (hu : Usable ro s.σ p u) : ∃ t, lastTag p h = some t ∧ ∀ x, p ≤ x → x < p + u → ¬ T.mismatch t x := by
  obtain ⟨hro, _⟩ := r.reach.roOk hg
  obtain ⟨w, f, _⟩ := r.reach.fits hg
  have I := r.inv hg hsys
  obtain ⟨h1, h2⟩ := r.untagged hg p
  have hui := Usable.is hro f.linked hl (f.σ ▸ hu)
  unfold lastTag
  cases ht : tagsAt p h with
  | nil => exact absurd ht (h1 hl)
  | cons t l =>
    refine ⟨t, rfl, fun x h3 h4 hn => hn ?_⟩
    rcases usable_place hro f.linked hui h3 h4 with ⟨a, c, i, k, hs, hx⟩ | ⟨k1, k2⟩
    · rw [I.mem p a c i k x hs hx, if_pos hl, ht]; rfl
    · rw [I.out x k2, h2 k1 t (by rw [ht]; exact List.mem_cons_self)]

/-- The tags of memory after the allocation of a block at `q`. -/
theorem alloc_tag (hro : RoOk ro) (r : Nat) (T : Tags) {q : Nat} (hq : ro.tagged q → ∃ a c i k, SlotAt ro q a c i k) (x : Nat) :
    (∀ a c i k, SlotAt ro q a c i k → inRange q (ro.g.slotSize c) x → (T.alloc ro sys r q).1.tag (x / 16) = (T.alloc ro sys r q).2) ∧
    ((∀ a c i k, SlotAt ro q a c i k → ¬ inRange q (ro.g.slotSize c) x) → (T.alloc ro sys r q).1.tag (x / 16) = T.tag (x / 16)) := by
  refine ⟨fun a c i k hs hx => ?_, fun hn => ?_⟩
  · rw [alloc_tagged (hs.tagged hro)]
    unfold Tags.tagSlot Tags.setMem
    simp only [hs.sizeClassOf hro]
    rw [if_pos ((hs.granule hro x).mpr hx)]
  · by_cases ht : ro.tagged q
    · obtain ⟨a, c, i, k, hs⟩ := hq ht
      rw [alloc_tagged ht]
      unfold Tags.tagSlot Tags.setMem
      simp only [hs.sizeClassOf hro]
      rw [if_neg fun hx => hn a c i k hs ((hs.granule hro x).mp hx)]
    · rw [alloc_untagged ht]

/-- C67. When `realloc` moves a block from `p` to `q`, it allocates the new block, copies, and then frees the old block. During the copy all usable bytes of the old block have
the tag of the pointer the program passed, and all usable bytes of the new block have the tag of the pointer that is going to be returned. -/
theorem c67_copy (hg : Good g ar) (hsys : SysOk sys) (r : TReach g ro ar calm D sys h s T) {t p n q : Nat} {chs : Nat → Choice} {x : Ret} (k : Nat)
    (ha : (Act.call t (.realloc p n) chs).Ok calm) (hon : (Act.call t (.realloc p n) chs).tagsOn) (hd : D (h.map Prod.fst) s (.call t (.realloc p n) chs))
    (hs : s.step ro ar (.call t (.realloc p n) chs) = .ok (s', .call t (.realloc p n) x)) (hb : x.block = some q) (hqp : q ≠ p)
    (hl : (live (h.map Prod.fst) p).isSome) {u v : Nat} (hu : Usable ro s.σ p u) (hv : Usable ro s'.σ q v) :
    ∃ old, lastTag p h = some old ∧
      TReach g ro ar calm D sys ((.call t (.realloc p n) x, (T.alloc ro sys k q).2) :: h) s' (T.step ro sys k (.call t (.realloc p n) x) s.σ.vm.prot s'.σ.vm.prot).1 ∧
      (∀ y, p ≤ y → y < p + u → ¬ (T.alloc ro sys k q).1.mismatch old y) ∧
      ∀ y, q ≤ y → y < q + v → ¬ (T.alloc ro sys k q).1.mismatch (T.alloc ro sys k q).2 y := by
  obtain ⟨hro, _⟩ := r.reach.roOk hg
  obtain ⟨w, f, _⟩ := r.reach.fits hg
  have I := r.inv hg hsys
  have hcr : (Ev.call t (.realloc p n) x).created = some q := by simp only [Ev.created, hb, if_neg hqp]
  have r' := TReach.step k r ha hon hd hs
  have et : (T.step ro sys k (.call t (.realloc p n) x) s.σ.vm.prot s'.σ.vm.prot).2 = (T.alloc ro sys k q).2 := by
    unfold Tags.step
    simp only [hcr, Option.map_some, Option.getD_some]
  rw [et] at r'
  obtain ⟨w', f', _⟩ := r'.reach.fits hg
  have E := r.reach.event hg ha hs
  obtain ⟨_, hlq, _⟩ := E.created q hcr
  obtain ⟨old, ho, hold⟩ := c67_no_fault hg hsys r hl hu
  have hslot : ro.tagged q → ∃ a c i k, SlotAt ro q a c i k := fun ht => by
    obtain ⟨a, c, i, k, h1, _⟩ := live_slot hro f'.linked hlq ht.1 ht.2
    exact ⟨a, c, i, k, h1⟩
  have hui := Usable.is hro f.linked hl (f.σ ▸ hu)
  have hvi := Usable.is hro f'.linked hlq (f'.σ ▸ hv)
  refine ⟨old, ho, r', fun y h1 h2 hn => hn ?_, fun y h1 h2 hn => hn ?_⟩
  · rw [(alloc_tag hro k T hslot y).2]
    · exact not_not.mp (hold y h1 h2)
    · intro a c i k hq hy
      rcases usable_place hro f.linked hui h1 h2 with ⟨a', c', i', k', hp, hx⟩ | ⟨_, k2⟩
      · exact hqp (hq.disjoint hro hp hy hx)
      · exact k2 q a c i k hq hy
  · rcases usable_place hro f'.linked hvi h1 h2 with ⟨a, c, i, k', hq, hx⟩ | ⟨k1, k2⟩
    · exact (alloc_tag hro k T hslot y).1 a c i k' hq hx
    · rw [(alloc_tag hro k T hslot y).2 (fun a c i k => k2 q a c i k), I.out y k2]
      rw [alloc_untagged k1]

/-- An execution to which the theorems apply: a small block is moved to a larger slot, and a large block is live. -/
example : ∃ h s T, TReach (mtCfg true) (mtRo true) (fun t => t % 4) false (goodClient (mtRo true)) (fun t => t == 0) h s T ∧
    SysOk (fun t => t == 0) ∧ ∃ p q v, lastTag p h = some 0 ∧ (live (h.map Prod.fst) p).isSome ∧ lastTag q h = some v ∧ v ≠ 0 ∧ (live (h.map Prod.fst) q).isSome ∧
      (∃ u, 0 < u ∧ Usable (mtRo true) s.σ p u) ∧ (∃ u, 0 < u ∧ Usable (mtRo true) s.σ q u) ∧
      h.any (fun et => et.1.freed == some exA && et.1.created == some q) := by
  obtain ⟨h, s, T, h1, h2⟩ := ex_tags (calm := false)
    [(.call 0 (.malloc 200000) exMapAt, 0), (.call 0 (.malloc 100) 0, 5), (.call 0 (.realloc exA 500) 0, 3)]
    (fun h s T => lastTag 17592186048512 h == some 0 && ((live (h.map Prod.fst) 17592186048512).isSome && (lastTag 2199023259648 h == some 4 &&
      ((live (h.map Prod.fst) 2199023259648).isSome && (usableB (mtRo true) s.σ 17592186048512 == some 229376 && (usableB (mtRo true) s.σ 2199023259648 == some 504 &&
      h.any (fun et => et.1.freed == some exA && et.1.created == some 2199023259648)))))))
    (by decide +kernel)
  simp only [Bool.and_eq_true, beq_iff_eq] at h2
  obtain ⟨q1, q2, q3, q4, q5, q6, q7⟩ := h2
  exact ⟨h, s, T, h1, sysOk_zero, _, _, 4, q1, q2, q3, by decide, q4, ⟨_, by decide, usableB_usable q5⟩, ⟨_, by decide, usableB_usable q6⟩, q7⟩

end HM
