import Verif.MteInv
import Verif.Example
import Verif.Props.Layout
/-
C34, C35: memory tagging.
-/
namespace HM

variable {g : Cfg} {ro : Ro} {ar : Nat → Nat} {calm : Bool} {D : Client} {sys : Nat → Bool} {h h1 h2 : List (Ev × Nat)} {s : Sys} {T : Tags}

/-! ### Specification -/

/-- The bytes set aside for a block at address `p` in the slab region. -/
def Ro.slotBytes (ro : Ro) (p x : Nat) : Prop := p ≤ x ∧ x < p + ro.g.slotSize (ro.sizeClassOf p).2

/-- `p` and `x` lie in the same slab. -/
def Ro.sameSlab (ro : Ro) (p x : Nat) : Prop := ∃ a c m, a < ro.g.nArena ∧ c < nClasses ro.g ∧ m < ro.g.metaMax c ∧
  ∀ y, y = p ∨ y = x → ro.regionStart a c + m * ro.g.slabSize c ≤ y ∧ y < ro.regionStart a c + (m + 1) * ro.g.slabSize c

/-- An access to byte `x` with a pointer with this tag does not match the tag of memory. If tags are checked for the page of `x`, the access faults. -/
def Tags.mismatch (T : Tags) (tag x : Nat) : Prop := T.tag (x / 16) ≠ tag

/-- The tag of the pointer that was returned for the last block created at `p`. -/
def lastTag (p : Nat) (h : List (Ev × Nat)) : Option Nat := (tagsAt p h).head?

/-- The system reserves tag 0 only (memtag.h:9), which is enough for the theorems. -/
theorem sysOk_zero : SysOk fun t => t == 0 := by
  intro a b c
  by_contra hn
  have h1 : ∀ t, t < 16 → t ≠ 0 → t = a ∨ t = b ∨ t = c := fun t h1 h2 => by
    by_contra h3
    refine hn ⟨t, h1, h2, fun e => h3 (Or.inl e), fun e => h3 (Or.inr (Or.inl e)), fun e => h3 (Or.inr (Or.inr e)), ?_⟩
    simp [h2]
  have q1 := h1 1 (by decide) (by decide)
  have q2 := h1 2 (by decide) (by decide)
  have q3 := h1 3 (by decide) (by decide)
  have q4 := h1 4 (by decide) (by decide)
  omega

/-! ### Pointers and memory -/

theorem untag_eq (p : Nat) : untagPointer p = p % 2 ^ 56 := by
  unfold untagPointer
  rw [show (2 ^ 64 - 1) >>> 8 = 2 ^ 56 - 1 by decide, Nat.and_two_pow_sub_one_eq_mod]

/-- C34. A pointer with a tag: its tag and its address can be recovered, and it is a 64-bit number. -/
theorem c34_pointer {p t : Nat} (hp : p < 2 ^ 56) (ht : t < 16) :
    getPointerTag (setPointerTag p t) = t ∧ untagPointer (setPointerTag p t) = p ∧ setPointerTag p t < 2 ^ 64 := by
  have e : setPointerTag p t = 2 ^ 56 * t + p := by
    unfold setPointerTag
    rw [untag_eq, Nat.mod_eq_of_lt hp, Nat.shiftLeft_eq, Nat.mul_comm t, Nat.two_pow_add_eq_or_of_lt hp]
  rw [e]
  refine ⟨?_, ?_, by omega⟩
  · unfold getPointerTag
    rw [Nat.shiftRight_eq_div_pow, show (0xf : Nat) = 2 ^ 4 - 1 by decide, Nat.and_two_pow_sub_one_eq_mod]
    omega
  · rw [untag_eq]; omega

example : getPointerTag (setPointerTag 0x12345678 7) = 7 ∧ untagPointer (setPointerTag 0x12345678 7) = 0x12345678 := by
  have := c34_pointer (p := 0x12345678) (t := 7) (by decide) (by decide); exact ⟨this.1, this.2.1⟩

/-- The granules and bytes from `a` up to `b` have been set. -/
def TMem.filled (m : TMem) (a b tag : Nat) : TMem :=
  ⟨fun g => if a / 16 ≤ g ∧ g < b / 16 then tag else m.tag g, fun x => if a ≤ x ∧ x < b then 0#8 else m.byte x⟩

theorem TMem.fill_eq (m : TMem) {cur n tag : Nat} (h : cur % n = 0) : m.fill cur n tag = m.filled cur (cur + n) tag := by
  unfold TMem.fill TMem.filled
  simp only [h, Nat.sub_zero]

theorem TMem.filled_filled (m : TMem) {a b c tag : Nat} (h1 : a ≤ b) (h2 : b ≤ c) (hb : b % 16 = 0) :
    (m.filled a b tag).filled b c tag = m.filled a c tag := by
  unfold TMem.filled
  simp only [TMem.mk.injEq]
  refine ⟨funext fun g => ?_, funext fun x => ?_⟩
  · by_cases k1 : b / 16 ≤ g ∧ g < c / 16
    · rw [if_pos k1, if_pos (by omega)]
    · rw [if_neg k1]
      by_cases k2 : a / 16 ≤ g ∧ g < b / 16
      · rw [if_pos k2, if_pos (by omega)]
      · rw [if_neg k2, if_neg (by omega)]
  · by_cases k1 : b ≤ x ∧ x < c
    · rw [if_pos k1, if_pos (by omega)]
    · rw [if_neg k1]
      by_cases k2 : a ≤ x ∧ x < b
      · rw [if_pos k2, if_pos (by omega)]
      · rw [if_neg k2, if_neg (by omega)]

theorem TMem.filled_self (m : TMem) {a tag : Nat} : m.filled a a tag = m := by
  unfold TMem.filled
  obtain ⟨t, b⟩ := m
  simp only [TMem.mk.injEq]
  exact ⟨funext fun g => if_neg (by omega), funext fun x => if_neg (by omega)⟩

theorem fillWhile_eq {tag fin : Nat} (n : Nat) : ∀ {cur : Nat} (m : TMem), cur % 16 = 0 → fin = cur + 16 * n → fillWhile tag fin cur m = m.filled cur fin tag := by
  induction n with
  | zero =>
    intro cur m _ hf
    unfold fillWhile
    rw [if_pos (by omega), hf]
    exact m.filled_self.symm
  | succ n ih =>
    intro cur m hc hf
    unfold fillWhile
    rw [if_neg (by omega), ih _ (by omega) (by omega), m.fill_eq hc, m.filled_filled (by omega) (by omega) (by omega)]

theorem fillDo_eq {step tag next : Nat} (h0 : 0 < step) (h16 : step % 16 = 0) (n : Nat) : ∀ {cur : Nat} (m : TMem), cur % step = 0 →
    cur + step * n < next → next ≤ cur + step * (n + 1) → fillDo step tag next cur m = (cur + step * (n + 1), m.filled cur (cur + step * (n + 1)) tag) := by
  induction n with
  | zero =>
    intro cur m hc h1 h2
    unfold fillDo
    rw [if_neg (by omega), m.fill_eq hc]
    simp
  | succ n ih =>
    intro cur m hc h1 h2
    have hc16 : (cur + step) % 16 = 0 := by
      obtain ⟨j, hj⟩ := Nat.dvd_of_mod_eq_zero h16
      obtain ⟨i, hi⟩ := Nat.dvd_of_mod_eq_zero hc
      rw [hi, hj, Nat.mul_assoc]; omega
    have e1 : step * (n + 1) = step * n + step := by rw [Nat.mul_add, Nat.mul_one]
    have e2 : step * (n + 1 + 1) = step * n + step + step := by rw [Nat.mul_add, Nat.mul_one, e1]
    unfold fillDo
    rw [if_pos ⟨by omega, h0⟩, ih (cur := cur + step) (m.fill cur step tag) (by rw [Nat.add_mod_right]; exact hc) (by omega) (by omega), m.fill_eq hc,
      m.filled_filled (by omega) (by omega) hc16]
    rw [show cur + step + step * (n + 1) = cur + step * (n + 1 + 1) by omega]

theorem or_mask (b n : Nat) : b ||| (2 ^ n - 1) = b - b % 2 ^ n + (2 ^ n - 1) := by
  have hp : 0 < 2 ^ n := Nat.two_pow_pos n
  have hr := Nat.mod_lt b hp
  have e := Nat.div_add_mod b (2 ^ n)
  have e1 : b = 2 ^ n * (b / 2 ^ n) ||| b % 2 ^ n := by rw [← Nat.two_pow_add_eq_or_of_lt hr, e]
  have e2 : b % 2 ^ n ||| (2 ^ n - 1) = 2 ^ n - 1 := by
    apply Nat.eq_of_testBit_eq
    intro i
    rw [Nat.testBit_or, Nat.testBit_two_pow_sub_one, Nat.testBit_mod_two_pow]
    by_cases hi : i < n <;> simp [hi]
  calc b ||| (2 ^ n - 1) = 2 ^ n * (b / 2 ^ n) ||| (b % 2 ^ n ||| (2 ^ n - 1)) := by rw [← Nat.or_assoc, ← e1]
    _ = 2 ^ n * (b / 2 ^ n) + (2 ^ n - 1) := by rw [e2, ← Nat.two_pow_add_eq_or_of_lt (by omega)]
    _ = _ := by omega

/-- C34. The function that sets the tags of a slot sets the tags of the granules of the slot, clears its bytes, and changes nothing else, whatever the size of lines and
whether or not they can be used (`dcz`; lines have at least 16 bytes). -/
theorem tagAndClearMem_eq {dcz tag p n : Nat} (hp : p % 16 = 0) (hn : n % 16 = 0) (hd : dcz.testBit 4 = false → 2 ≤ dcz &&& 15) (m : TMem) :
    (∀ gr, (tagAndClearMem dcz tag p n m).tag gr = if p ≤ 16 * gr ∧ 16 * gr < p + n then tag else m.tag gr) ∧
    ∀ x, (tagAndClearMem dcz tag p n m).byte x = if p ≤ x ∧ x < p + n then 0#8 else m.byte x := by
  suffices hs : tagAndClearMem dcz tag p n m = m.filled p (p + n) tag by
    rw [hs]
    refine ⟨fun gr => ?_, fun x => rfl⟩
    show (if _ then _ else _) = _
    by_cases k : p ≤ 16 * gr ∧ 16 * gr < p + n
    · rw [if_pos k, if_pos (by omega)]
    · rw [if_neg k, if_neg (by omega)]
  unfold tagAndClearMem
  simp only
  split
  · exact fillWhile_eq (n / 16) m hp (by omega)
  · rename_i hc
    rw [not_or] at hc
    obtain ⟨hc1, hc2⟩ := hc
    have h2 := hd (by simpa using hc1)
    obtain ⟨j, hj⟩ : ∃ j, dcz &&& 15 = j + 2 := ⟨(dcz &&& 15) - 2, by omega⟩
    have hL : 4 <<< (dcz &&& 15) = 2 ^ (j + 4) := by
      rw [hj, Nat.shiftLeft_eq, show (4 : Nat) = 2 ^ 2 by decide, ← Nat.pow_add]; congr 1; omega
    have hL16 : 2 ^ (j + 4) = 16 * 2 ^ j := by rw [Nat.pow_add]; omega
    rw [hL] at hc2 ⊢
    rw [Nat.shiftLeft_eq] at hc2
    rw [or_mask]
    have hLpos : 0 < 2 ^ (j + 4) := Nat.two_pow_pos _
    have hm16 : (2 ^ (j + 4)) % 16 = 0 := by rw [hL16]; omega
    generalize hLe : 2 ^ (j + 4) = L at *
    have hpl := Nat.mod_lt p hLpos
    have hdvd : 16 ∣ L := Nat.dvd_of_mod_eq_zero hm16
    have hpm : p % L % 16 = 0 := by rw [Nat.mod_mod_of_dvd _ hdvd]; exact hp
    -- the first loop ends at the next line
    have hN : (p - p % L + L) % L = 0 := by
      rw [Nat.add_mod_right]
      have e := Nat.div_add_mod p L
      rw [show p - p % L = L * (p / L) by omega]; exact Nat.mul_mod_right _ _
    have hle := Nat.mod_le p L
    obtain ⟨i, hi⟩ : ∃ i, L - p % L = 16 * (i + 1) := ⟨(L - p % L) / 16 - 1, by omega⟩
    rw [fillDo_eq (by decide) (by decide) i m hp (by omega) (by omega)]
    simp only
    have eN : p + 16 * (i + 1) = p - p % L + L := by omega
    rw [eN]
    generalize hNe : p - p % L + L = N at *
    -- the second loop ends at the last line
    have e := Nat.div_add_mod (p + n) L
    have hfl := Nat.mod_lt (p + n) hLpos
    have hFm : ∃ q, p + n - (p + n) % L = L * q := ⟨(p + n) / L, by omega⟩
    obtain ⟨q, hq⟩ := hFm
    obtain ⟨q', hq'⟩ := Nat.dvd_of_mod_eq_zero hN
    have hlt : q' < q := by
      by_contra hn'
      have : L * q ≤ L * q' := Nat.mul_le_mul_left _ (by omega)
      omega
    obtain ⟨d, hd'⟩ : ∃ d, q = q' + (d + 1) := ⟨q - q' - 1, by omega⟩
    have eq : p + n - (p + n) % L = N + L * (d + 1) := by rw [hq, hd', Nat.mul_add, hq']
    have eL : L * (d + 1) = L * d + L := by rw [Nat.mul_add, Nat.mul_one]
    rw [eq, fillDo_eq hLpos hm16 d (m.filled p N tag) hN (by omega) (by omega)]
    simp only
    -- the rest
    have hN16 : N % 16 = 0 := by rw [hq']; obtain ⟨z, hz⟩ := hdvd; rw [hz, Nat.mul_assoc]; omega
    have hE16 : (N + L * (d + 1)) % 16 = 0 := by
      obtain ⟨z, hz⟩ := hdvd
      have : L * (d + 1) = 16 * (z * (d + 1)) := by rw [hz, Nat.mul_assoc]
      omega
    rw [fillWhile_eq ((p + n - (N + L * (d + 1))) / 16) _ hE16 (by omega), m.filled_filled (by omega) (by omega) hN16, m.filled_filled (by omega) (by omega) hE16]

/-- Lines of 64 bytes, and a slot of 320 bytes that does not begin at a line. -/
example : ((4 : Nat).testBit 4 = false → 2 ≤ 4 &&& 15) ∧ 4 <<< (4 &&& 15) = 64 ∧ (tagAndClearMem 4 9 0x1010 320 ⟨fun _ => 3, fun _ => 1#8⟩).tag 0x101 = 9 ∧
    (tagAndClearMem 4 9 0x1010 320 ⟨fun _ => 3, fun _ => 1#8⟩).tag 0x100 = 3 := by
  have := tagAndClearMem_eq (dcz := 4) (tag := 9) (p := 0x1010) (n := 320) (by decide) (by decide) (by decide) ⟨fun _ => 3, fun _ => 1#8⟩
  refine ⟨by decide, by decide, ?_, ?_⟩
  · rw [this.1]; rfl
  · rw [this.1]; rfl

/-! ### C34 -/

theorem lastTag_headD {p t : Nat} (e : lastTag p h = some t) : (tagsAt p h).headD 0 = t := by
  unfold lastTag at e
  cases hl : tagsAt p h with
  | nil => rw [hl] at e; cases e
  | cons a l => rw [hl] at e; cases e; rfl

theorem SlotAt.slotBytes (hro : RoOk ro) {p a c i k x : Nat} (hs : SlotAt ro p a c i k) : ro.slotBytes p x ↔ inRange p (ro.g.slotSize c) x := by
  unfold Ro.slotBytes inRange; rw [hs.sizeClassOf hro]

theorem TInv.new_tag (hro : RoOk ro) {e : Ev} {t p : Nat} (I : TInv ro ((e, t) :: h) T) (hc : e.created = some p)
    (ht : ro.tagged p) : 0 < t ∧ t < 16 ∧ lastTag p h ≠ some t ∧
      ∀ q, ro.sameSlab p q → ro.tagged q → q = p + ro.g.slotSize (ro.sizeClassOf p).2 ∨ p = q + ro.g.slotSize (ro.sizeClassOf p).2 → lastTag q h ≠ some t := by
  have e1 : tagsAt p ((e, t) :: h) = t :: tagsAt p h := by rw [tagsAt_cons, if_pos hc]
  obtain ⟨a, c, i, k, hs⟩ := I.slot p ht (by rw [e1]; exact fun h => by cases h)
  have hpos := I.tags p a c i k hs t (by rw [e1]; exact List.mem_cons_self)
  refine ⟨by omega, hpos.2, fun h2 => ?_, fun q h3 h4 h5 h6 => ?_⟩
  · have h3 := I.chain p a c i k hs
    rw [e1] at h3
    unfold lastTag at h2
    cases hl : tagsAt p h with
    | nil => rw [hl] at h2; cases h2
    | cons y l =>
      rw [hl] at h2 h3
      cases h2
      cases h3 with
      | cons_cons h3 _ => exact h3 rfl
  · rw [hs.sizeClassOf hro] at h5
    simp only at h5
    have hz := (classGeo ro.g hs.cls).size_ge
    have hpq : e.created ≠ some q := by rw [hc]; intro h; cases h; omega
    have e2 : tagsAt q ((e, t) :: h) = tagsAt q h := by rw [tagsAt_cons, if_neg hpq]
    have hne : tagsAt q h ≠ [] := fun h => by unfold lastTag at h6; rw [h] at h6; cases h6
    obtain ⟨a', c', i', k', hs'⟩ := I.slot q h4 (by rw [e2]; exact hne)
    have h7 := lastTag_headD h6
    -- the neighbour is the slot before or behind
    obtain ⟨a1, c1, m, ha1, hc1, hm, hy⟩ := h3
    have key : ∀ {p a c i k}, SlotAt ro p a c i k → ro.regionStart a1 c1 + m * ro.g.slabSize c1 ≤ p → p < ro.regionStart a1 c1 + (m + 1) * ro.g.slabSize c1 →
        a = a1 ∧ c = c1 ∧ i = m := fun {p a c i k} hs g1 g2 => by
      rw [Nat.add_mul, Nat.one_mul] at g2
      have g3 : inRange (ro.regionStart a1 c1) ro.g.classRegionSize p := by
        have := slab_in_region hc1 hm
        unfold inRange; omega
      have g4 := hro.sizeClassOf ha1 hc1 (hro.region_cell ha1 hc1 g3)
      rw [hs.sizeClassOf hro] at g4
      simp only [Prod.mk.injEq] at g4
      obtain ⟨rfl, rfl⟩ := g4
      have g5 := slot_in_slab hs.cls hs.slot
      have g6 := hs.addr
      rw [slotAddr_eq] at g6
      refine ⟨rfl, rfl, ?_⟩
      have hz := (classGeo ro.g hs.cls).size_ge
      rcases Nat.lt_trichotomy i m with l | l | l
      · have : (i + 1) * ro.g.slabSize c ≤ m * ro.g.slabSize c := Nat.mul_le_mul_right _ l
        rw [Nat.add_mul, Nat.one_mul] at this; omega
      · exact l
      · have : (m + 1) * ro.g.slabSize c ≤ i * ro.g.slabSize c := Nat.mul_le_mul_right _ l
        rw [Nat.add_mul, Nat.one_mul] at this; omega
    obtain ⟨rfl, rfl, rfl⟩ := key hs (hy p (Or.inl rfl)).1 (hy p (Or.inl rfl)).2
    obtain ⟨rfl, rfl, rfl⟩ := key hs' (hy q (Or.inr rfl)).1 (hy q (Or.inr rfl)).2
    have a1 := hs.addr
    have a2 := hs'.addr
    rw [slotAddr_eq] at a1 a2
    rcases h5 with h5 | h5
    · have hk : k' = k + 1 := by
        refine Nat.eq_of_mul_eq_mul_right (show 0 < ro.g.slotSize c' by omega) ?_
        rw [Nat.add_mul, Nat.one_mul]; omega
      subst hk
      have h8 := I.next p q _ _ _ k hs hs' (by rw [e1, e2, h7]; rfl)
      rw [e1] at h8
      exact hpos.1 h8
    · have hk : k = k' + 1 := by
        refine Nat.eq_of_mul_eq_mul_right (show 0 < ro.g.slotSize c' by omega) ?_
        rw [Nat.add_mul, Nat.one_mul]; omega
      subst hk
      have h8 := I.next q p _ _ _ k' hs' hs (by rw [e1, e2, h7]; rfl)
      rw [e2, h7] at h8
      exact hpos.1 h8

/-- C34. The tag of a new block is one of 1 to 15. It differs from the tag of the block that was last created at this address, and from the tag that was last given to a
neighbour in the same slab, whether or not these blocks are still live. -/
theorem c34_new_tag (hg : Good g ar) (hsys : SysOk sys) {e : Ev} {t p : Nat} (r : TReach g ro ar calm D sys ((e, t) :: h) s T) (hc : e.created = some p)
    (ht : ro.tagged p) : 0 < t ∧ t < 16 ∧ lastTag p h ≠ some t ∧
      ∀ q, ro.sameSlab p q → ro.tagged q → q = p + ro.g.slotSize (ro.sizeClassOf p).2 ∨ p = q + ro.g.slotSize (ro.sizeClassOf p).2 → lastTag q h ≠ some t :=
  (r.inv hg hsys).new_tag (r.reach.roOk hg).1 hc ht

theorem TInv.live_tag (hro : RoOk ro) (I : TInv ro h T) {p a c i k : Nat} (hs : SlotAt ro p a c i k) (hl : (HM.live (h.map Prod.fst) p).isSome) :
    ∃ t, lastTag p h = some t ∧ 0 < t ∧ t < 16 ∧ ∀ x, ro.slotBytes p x → ¬ T.mismatch t x := by
  have hne := I.live p a c i k hs hl
  have hm := I.mem p a c i k
  have hpos := I.tags p a c i k hs
  unfold lastTag
  cases ht : tagsAt p h with
  | nil => exact absurd ht hne
  | cons t l =>
    have h1 := hpos t (by rw [ht]; exact List.mem_cons_self)
    refine ⟨t, rfl, by omega, h1.2, fun x hx hn => hn ?_⟩
    rw [hm x hs ((hs.slotBytes hro).mp hx), if_pos hl, ht]; rfl

/-- C34. A live block has a tag, from 1 to 15, and all of its memory has this tag: an access with the pointer that was returned does not fault. -/
theorem c34_live (hg : Good g ar) (hsys : SysOk sys) (r : TReach g ro ar calm D sys h s T) {p : Nat} (hl : (live (h.map Prod.fst) p).isSome) (ht : ro.tagged p) :
    ∃ t, lastTag p h = some t ∧ 0 < t ∧ t < 16 ∧ ∀ x, ro.slotBytes p x → ¬ T.mismatch t x := by
  obtain ⟨hro, _⟩ := r.reach.roOk hg
  obtain ⟨w, f, _⟩ := r.reach.fits hg
  obtain ⟨a, c, i, k, hs, _⟩ := live_slot hro f.linked hl ht.1 ht.2
  exact (r.inv hg hsys).live_tag hro hs hl

theorem TInv.overflow (hro : RoOk ro) (I : TInv ro h T) {p a c i k t x : Nat} (hs : SlotAt ro p a c i k)
    (hlast : lastTag p h = some t) (hslab : ro.sameSlab p x) (hx : ¬ ro.slotBytes p x) (h1 : p ≤ x + ro.g.slotSize (ro.sizeClassOf p).2)
    (h2 : x < p + 2 * ro.g.slotSize (ro.sizeClassOf p).2) : T.mismatch t x := by
  have h3 := lastTag_headD hlast
  have hpos : t ≠ 0 := by
    unfold lastTag at hlast
    cases hta : tagsAt p h with
    | nil => rw [hta] at hlast; cases hlast
    | cons y l => rw [hta] at hlast; cases hlast; exact (I.tags p a c i k hs t (by rw [hta]; exact List.mem_cons_self)).1
  intro he
  by_cases hex : ∃ q a' c' i' k', SlotAt ro q a' c' i' k' ∧ inRange q (ro.g.slotSize c') x
  · obtain ⟨q, a', c', i', k', hs', hq⟩ := hex
    rw [hs.sizeClassOf hro] at h1 h2
    rw [hs.slotBytes hro] at hx
    obtain ⟨a1, c1, m, ha1, hc1, hm, hy⟩ := hslab
    -- all are in the same slab
    have key : ∀ {p a c i k y}, SlotAt ro p a c i k → inRange p (ro.g.slotSize c) y → ro.regionStart a1 c1 + m * ro.g.slabSize c1 ≤ y →
        y < ro.regionStart a1 c1 + (m + 1) * ro.g.slabSize c1 → a = a1 ∧ c = c1 ∧ i = m := fun {p a c i k y} hs g0 g1 g2 => by
      rw [Nat.add_mul, Nat.one_mul] at g2
      have g3 : inRange (ro.regionStart a1 c1) ro.g.classRegionSize y := by
        have := slab_in_region hc1 hm
        unfold inRange; omega
      have g4 := hro.sizeClassOf ha1 hc1 (hro.region_cell ha1 hc1 g3)
      have g7 := hro.sizeClassOf hs.arena hs.cls (hro.region_cell hs.arena hs.cls (slot_in_region hro hs.arena hs.cls hs.slab hs.slot (hs.addr ▸ g0)))
      rw [g7] at g4
      simp only [Prod.mk.injEq] at g4
      obtain ⟨rfl, rfl⟩ := g4
      have g5 := slot_in_slab hs.cls hs.slot
      have g6 := hs.addr
      rw [slotAddr_eq] at g6
      unfold inRange at g0
      refine ⟨rfl, rfl, ?_⟩
      rcases Nat.lt_trichotomy i m with l | l | l
      · have : (i + 1) * ro.g.slabSize c ≤ m * ro.g.slabSize c := Nat.mul_le_mul_right _ l
        rw [Nat.add_mul, Nat.one_mul] at this; omega
      · exact l
      · have : (m + 1) * ro.g.slabSize c ≤ i * ro.g.slabSize c := Nat.mul_le_mul_right _ l
        rw [Nat.add_mul, Nat.one_mul] at this; omega
    have hz := (classGeo ro.g hs.cls).size_ge
    obtain ⟨rfl, rfl, rfl⟩ := key hs (y := p) (by unfold inRange; omega) (hy p (Or.inl rfl)).1 (hy p (Or.inl rfl)).2
    obtain ⟨rfl, rfl, rfl⟩ := key hs' hq (hy x (Or.inr rfl)).1 (hy x (Or.inr rfl)).2
    rw [I.mem q _ _ _ k' x hs' hq] at he
    split at he
    · have a1 := hs.addr
      have a2 := hs'.addr
      rw [slotAddr_eq] at a1 a2
      unfold inRange at hq hx
      generalize hZ : ro.g.slotSize c' = Z at *
      have hk : k' = k + 1 ∨ k = k' + 1 := by
        rcases Nat.lt_trichotomy k k' with l | l | l
        · left
          by_contra hn
          have : (k + 2) * Z ≤ k' * Z := Nat.mul_le_mul_right _ (by omega)
          rw [Nat.add_mul] at this; omega
        · subst l; omega
        · right
          by_contra hn
          have : (k' + 2) * Z ≤ k * Z := Nat.mul_le_mul_right _ (by omega)
          rw [Nat.add_mul] at this; omega
      rcases hk with rfl | rfl
      · have := I.next p q _ _ _ k hs hs' (by rw [h3, he])
        omega
      · have := I.next q p _ _ _ k' hs' hs (by rw [h3, he])
        omega
    · exact hpos he.symm
  · rw [I.out x (fun q a' c' i' k' hs' hq => hex ⟨q, a', c', i', k', hs', hq⟩)] at he
    exact hpos he.symm

/-- C34. Overflow: an access with the pointer of a live block, outside of the block but less than the size of the block away and in the same slab, does not match the tag of
memory. So it faults, whether or not the memory it reaches belongs to a live block. -/
theorem c34_overflow (hg : Good g ar) (hsys : SysOk sys) (r : TReach g ro ar calm D sys h s T) {p t x : Nat} (hl : (live (h.map Prod.fst) p).isSome) (ht : ro.tagged p)
    (hlast : lastTag p h = some t) (hslab : ro.sameSlab p x) (hx : ¬ ro.slotBytes p x) (h1 : p ≤ x + ro.g.slotSize (ro.sizeClassOf p).2)
    (h2 : x < p + 2 * ro.g.slotSize (ro.sizeClassOf p).2) : T.mismatch t x := by
  obtain ⟨hro, _⟩ := r.reach.roOk hg
  obtain ⟨w, f, _⟩ := r.reach.fits hg
  obtain ⟨a, c, i, k, hs, _⟩ := live_slot hro f.linked hl ht.1 ht.2
  exact (r.inv hg hsys).overflow hro hs hlast hslab hx h1 h2

/-- C34. With guard slabs after each slab (the default), the restriction to the slab is not necessary for the bytes next to the block: they cannot be accessed at all or do not match. -/
theorem c34_adjacent (hg : Good g ar) (hsys : SysOk sys) (hgs : g.guardSlabsInterval = 1) (r : TReach g ro ar calm D sys h s T) {p t x : Nat}
    (hl : (live (h.map Prod.fst) p).isSome) (ht : ro.tagged p)
    (hlast : lastTag p h = some t) (hx : x = p + ro.g.slotSize (ro.sizeClassOf p).2 ∨ x + 1 = p) : s.guarded x ∨ T.mismatch t x := by
  obtain ⟨hro, hge⟩ := r.reach.roOk hg
  obtain ⟨w, f, _⟩ := r.reach.fits hg
  obtain ⟨a, c, i, k, hs, hsm⟩ := live_slot hro f.linked hl ht.1 ht.2
  rw [hs.sizeClassOf hro] at hx
  simp only at hx
  obtain ⟨q1, q2, q3⟩ := hsm.lt f.linked.inv
  obtain ⟨P, E, F, hi⟩ := f.linked.inv.cls a c hs.arena hs.cls
  have hpar : i % 2 ≠ 1 := fun hn => by
    have : w.G.loc a c i = .fresh := (hi.bits.fresh i).mpr fun hA => hA.2 (by rw [hge, hgs]; exact hn)
    rw [this] at q3; cases q3
  have h1 := slab_in_region hs.cls hs.slab
  have h2 := slot_in_slab hs.cls hs.slot
  have h3 := hs.addr
  rw [slotAddr_eq] at h3
  have hz := (classGeo ro.g hs.cls).size_ge
  have hsl := (classGeo ro.g hs.cls).slab_ge
  have e1 : (i + 1) * ro.g.slabSize c = i * ro.g.slabSize c + ro.g.slabSize c := by rw [Nat.add_mul, Nat.one_mul]
  have e2 : (i + 1 + 1) * ro.g.slabSize c = i * ro.g.slabSize c + ro.g.slabSize c + ro.g.slabSize c := by rw [Nat.add_mul, Nat.one_mul, e1]
  by_cases hin : ro.regionStart a c + i * ro.g.slabSize c ≤ x ∧ x < ro.regionStart a c + (i + 1) * ro.g.slabSize c
  · right
    refine c34_overflow hg hsys r hl ht hlast ⟨a, c, i, hs.arena, hs.cls, hs.slab, ?_⟩ ?_ ?_ ?_
    · rintro y (rfl | rfl)
      · omega
      · exact hin
    · unfold Ro.slotBytes; rw [hs.sizeClassOf hro]; simp only; omega
    · rw [hs.sizeClassOf hro]; simp only; omega
    · rw [hs.sizeClassOf hro]; simp only; omega
  · left
    subst hge
    rcases hx with hx | hx
    · by_cases hreg : x < ro.regionStart a c + ro.g.classRegionSize
      · exact c18_guard_slab hg r.reach (m := i + 1) hs.arena hs.cls (by rw [hgs]; omega) ⟨by omega, hreg⟩ (by omega) (by omega)
      · exact c17_separated hg r.reach hs.arena hs.cls (Or.inr ⟨by omega, by omega⟩)
    · by_cases hi0 : i = 0
      · subst hi0
        exact c17_separated hg r.reach hs.arena hs.cls (Or.inl ⟨by omega, by omega⟩)
      · obtain ⟨j, rfl⟩ : ∃ j, i = j + 1 := ⟨i - 1, by omega⟩
        have e3 : (j + 1) * ro.g.slabSize c = j * ro.g.slabSize c + ro.g.slabSize c := by rw [Nat.add_mul, Nat.one_mul]
        exact c18_guard_slab hg r.reach (m := j) hs.arena hs.cls (by rw [hgs]; omega) ⟨by omega, by omega⟩ (by omega) (by omega)

/-- Without a new block at its address, a block that has been freed is not live. -/
theorem freed_dead (hg : Good g ar) {p : Nat} (r : TReach g ro ar calm D sys (h2 ++ h1) s T) (hf : ∃ et ∈ h2, et.1.freed = some p) (hn : tagsAt p h2 = []) :
    live ((h2 ++ h1).map Prod.fst) p = none := by
  induction h2 generalizing s T with
  | nil => obtain ⟨_, h, _⟩ := hf; cases h
  | cons et h2 ih =>
    obtain ⟨e, t⟩ := et
    cases r with
    | step r hr ha _ hd hs =>
      have E := hr.reach.event hg ha hs
      rw [tagsAt_cons] at hn
      have hc : e.created ≠ some p := fun h => by rw [if_pos h] at hn; cases hn
      rw [if_neg hc] at hn
      by_cases hfr : e.freed = some p
      · exact (E.freed p hfr).2
      · obtain ⟨et, h3, h4⟩ := hf
        rcases List.mem_cons.mp h3 with rfl | h3
        · exact absurd h4 hfr
        · have h5 := ih hr ⟨et, h3, h4⟩ hn
          have h6 : (live (e :: (h2 ++ h1).map Prod.fst) p).isSome = (live ((h2 ++ h1).map Prod.fst) p).isSome := E.other p hc hfr
          rw [h5] at h6
          exact Option.isSome_eq_false_iff.mp h6 |> Option.isNone_iff_eq_none.mp
    | other hr pg pr data hp =>
      rw [tagsAt_cons, if_neg nofun] at hn
      obtain ⟨et, h3, h4⟩ := hf
      rcases List.mem_cons.mp h3 with rfl | h3
      · cases h4
      · exact ih hr ⟨et, h3, h4⟩ hn

theorem TInv.dangling (hro : RoOk ro) {e : Ev} {t p x : Nat} (I : TInv ro (h2 ++ (e, t) :: h1) T) (hc : e.created = some p)
    (ht : ro.tagged p) (hf : tagsAt p h2 = [] → HM.live ((h2 ++ (e, t) :: h1).map Prod.fst) p = none) (hn : (tagsAt p h2).length ≤ 1) (hx : ro.slotBytes p x) : T.mismatch t x := by
  have e1 : tagsAt p (h2 ++ (e, t) :: h1) = tagsAt p h2 ++ t :: tagsAt p h1 := by
    have : tagsAt p ((e, t) :: h1) = t :: tagsAt p h1 := by rw [tagsAt_cons, if_pos hc]
    rw [← this]; unfold tagsAt; rw [List.filterMap_append]
  obtain ⟨a, c, i, k, hs⟩ := I.slot p ht (by rw [e1]; simp)
  have hpos := I.tags p a c i k hs t (by rw [e1]; simp)
  intro he
  rw [I.mem p a c i k x hs ((hs.slotBytes hro).mp hx)] at he
  split at he
  · rename_i hl
    cases hta : tagsAt p h2 with
    | nil => rw [hf hta] at hl; cases hl
    | cons y l =>
      rw [hta] at hn
      have : l = [] := List.eq_nil_of_length_eq_zero (by simp only [List.length_cons] at hn; omega)
      subst this
      have h3 := I.chain p a c i k hs
      rw [e1, hta] at h3 he
      cases h3 with
      | cons_cons h3 _ => exact h3 he
  · exact hpos.1 he.symm

/-- C34. Dangling pointers: after the block has been freed, accesses with its pointer do not match the tag of memory, until the second time that a new block is created at its address. -/
theorem c34_dangling (hg : Good g ar) (hsys : SysOk sys) {e : Ev} {t p x : Nat} (r : TReach g ro ar calm D sys (h2 ++ (e, t) :: h1) s T) (hc : e.created = some p)
    (ht : ro.tagged p) (hf : ∃ et ∈ h2, et.1.freed = some p) (hn : (tagsAt p h2).length ≤ 1) (hx : ro.slotBytes p x) : T.mismatch t x :=
  (r.inv hg hsys).dangling (r.reach.roOk hg).1 hc ht (freed_dead hg r hf) hn hx

/-! ### C35 -/

/-- C35. A page of the slab region on which tags are not checked has lost this property in an earlier step, which made the page inaccessible. So tags are checked for all slab memory
except in slabs that have been released to the system before. What is missing: the property fails for these (`c35_unchecked`). -/
theorem c35_checked_partial (r : TReach g ro ar calm D sys h s T) {pg : Nat} (hp : ro.inSlab (pg * 4096) = true) (hn : T.mte pg = false) :
    ∃ et h1 s1 T1 s2 T2, TReach g ro ar calm D sys h1 s1 T1 ∧ TReach g ro ar calm D sys (et :: h1) s2 T2 ∧ et :: h1 <:+ h ∧
      s1.σ.vm.prot pg = .rw ∧ s2.σ.vm.prot pg = .none := by
  induction r with
  | init _ _ _ => exact absurd hp (by rw [show ro.inSlab (pg * 4096) = false from hn]; simp)
  | @step hh s s' T a e r hr ha hon hd hs ih =>
    have h1 : (T.step ro sys r e s.σ.vm.prot s'.σ.vm.prot).1.mte pg = (T.mte pg && !(s.σ.vm.prot pg = .rw && s'.σ.vm.prot pg = .none : Bool)) := by
      have ha : ∀ (T : Tags) (o : Option Nat), ((o.map (T.alloc ro sys r)).getD (T, 0)).1.mte = T.mte := fun T o => by
        cases o with
        | none => rfl
        | some q =>
          show (T.alloc ro sys r q).1.mte = _
          unfold Tags.alloc; split <;> rfl
      have hf : ∀ (T : Tags) (o : Option Nat), ((o.map (T.free ro)).getD T).mte = T.mte := fun T o => by
        cases o with
        | none => rfl
        | some q =>
          show (T.free ro q).mte = _
          unfold Tags.free; split <;> rfl
      show (((e.freed.map (((e.created.map (T.alloc ro sys r)).getD (T, 0)).1.free ro)).getD ((e.created.map (T.alloc ro sys r)).getD (T, 0)).1).mte pg && _) = _
      rw [hf, ha]
    rw [h1] at hn
    by_cases ho : T.mte pg = true
    · rw [ho] at hn
      simp only [Bool.true_and, Bool.not_eq_false', Bool.and_eq_true, decide_eq_true_eq] at hn
      exact ⟨_, hh, s, T, s', _, hr, .step r hr ha hon hd hs, List.suffix_rfl, hn.1, hn.2⟩
    · obtain ⟨et, h1, s1, T1, s2, T2, q1, q2, q3, q4⟩ := ih (by simpa using ho)
      exact ⟨et, h1, s1, T1, s2, T2, q1, q2, q3.trans (List.suffix_cons _ _), q4⟩
  | other hr pg' pr data hp' ih =>
    obtain ⟨et, h1, s1, T1, s2, T2, q1, q2, q3, q4⟩ := ih hn
    exact ⟨et, h1, s1, T1, s2, T2, q1, q2, q3.trans (List.suffix_cons _ _), q4⟩

/-! ### Examples -/

/-- The actions one after the other, with the random choices of tags. -/
def runTags (ro : Ro) (ar : Nat → Nat) (calm : Bool) (sys : Nat → Bool) : List (ExAct × Nat) → List (Ev × Nat) → Sys → Tags → Option (List (Ev × Nat) × Sys × Tags)
  | [], h, s, T => some (h, s, T)
  | a :: as, h, s, T =>
      if a.1.okB calm && goodB ro (h.map Prod.fst) s a.1.act then
        match s.step ro ar a.1.act with
        | .ok (s', e) =>
          let x := T.step ro sys a.2 e s.σ.vm.prot s'.σ.vm.prot
          runTags ro ar calm sys as ((e, x.2) :: h) s' x.1
        | _ => none
      else none

theorem ExAct.tagsOn (a : ExAct) : a.act.tagsOn := by
  cases a with
  | call t c a => exact fun _ => rfl
  | fail t c a n => exact fun i => by simp only; split <;> rfl
  | store => trivial
  | errno => trivial

theorem runTags_reach {as : List (ExAct × Nat)} {h h' : List (Ev × Nat)} {s s' : Sys} {T T' : Tags} (r : TReach g ro ar calm (goodClient ro) sys h s T)
    (e : runTags ro ar calm sys as h s T = some (h', s', T')) : TReach g ro ar calm (goodClient ro) sys h' s' T' := by
  induction as generalizing h s T with
  | nil => cases e; exact r
  | cons a as ih =>
    unfold runTags at e
    by_cases k : (a.1.okB calm && goodB ro (h.map Prod.fst) s a.1.act) = true
    · rw [if_pos k] at e
      rw [Bool.and_eq_true] at k
      revert e
      cases hs : s.step ro ar a.1.act with
      | ok x =>
        obtain ⟨s1, e1⟩ := x
        exact fun e => ih (.step a.2 r (ExAct.okB_ok k.1) a.1.tagsOn (goodB_good k.2) hs) e
      | fatal m => intro e; cases e
      | segv => intro e; cases e
      | ub m => intro e; cases e
      | hang => intro e; cases e
    · rw [if_neg k] at e; cases e

/-- An execution of a well-behaved application with memory tagging, without quarantines for small blocks. -/
theorem ex_tags {calm : Bool} (as : List (ExAct × Nat)) (P : List (Ev × Nat) → Sys → Tags → Bool)
    (e : ((runTags (mtRo true) (fun t => t % 4) calm (fun t => t == 0) as [] ⟨exSt, fun _ => ⟨0, false⟩⟩ (Tags.init (mtRo true))).any
      fun x => P x.1 x.2.1 x.2.2) = true) :
    ∃ h s T, TReach (mtCfg true) (mtRo true) (fun t => t % 4) calm (goodClient (mtRo true)) (fun t => t == 0) h s T ∧ P h s T = true := by
  rw [Option.any_eq_true] at e
  obtain ⟨⟨h, s, T⟩, h1, h2⟩ := e
  exact ⟨h, s, T, runTags_reach (.init rfl (mtInit true) fun _ => rfl) h1, h2⟩

/-- C35 is false: two blocks of 131000 bytes are freed, `malloc_trim` is called, and the next block of this size lies on pages without tag checking. -/
theorem c35_unchecked : ∃ h s T, TReach (mtCfg true) (mtRo true) (fun t => t % 4) false (goodClient (mtRo true)) (fun t => t == 0) h s T ∧
    (live (h.map Prod.fst) 4398046777344).isSome ∧ (mtRo true).tagged 4398046777344 ∧ s.access 4398046777344 ∧ T.mte (4398046777344 / 4096) = false := by
  obtain ⟨h, s, T, h1, h2⟩ := ex_tags (calm := false)
    [(.call 0 (.malloc 131000) 0, 0), (.call 0 (.malloc 131000) 0, 1), (.call 0 (.free 4398046515200) 0, 0), (.call 0 (.free 4398046777344) 0, 0), (.call 0 .trim 0, 0),
      (.call 0 (.malloc 131000) 0, 0)]
    (fun h s T => (live (h.map Prod.fst) 4398046777344).isSome && (decide (s.σ.vm.prot (4398046777344 / 4096) = .rw) && !T.mte (4398046777344 / 4096)))
    (by decide +kernel)
  simp only [Bool.and_eq_true, decide_eq_true_eq, Bool.not_eq_true'] at h2
  exact ⟨h, s, T, h1, h2.1, by unfold Ro.tagged; decide +kernel, h2.2.1, h2.2.2⟩

/-- An execution to which the theorems about tags apply: three blocks in a row (the first and the third get the same tag), and the first is freed and allocated again. -/
example : ∃ h s T, TReach (mtCfg true) (mtRo true) (fun t => t % 4) false (goodClient (mtRo true)) (fun t => t == 0) h s T ∧
    SysOk (fun t => t == 0) ∧ (mtCfg true).guardSlabsInterval = 1 ∧ (mtRo true).tagged exA ∧ (mtRo true).sameSlab exA (exA + 112) ∧
    (live (h.map Prod.fst) exA).isSome ∧ (live (h.map Prod.fst) (exA + 112)).isSome ∧
    tagsAt exA h = [2, 1] ∧ tagsAt (exA + 112) h = [7] ∧ tagsAt (exA + 224) h = [1] ∧ h.any (fun et => et.1.freed == some exA) := by
  obtain ⟨h, s, T, h1, h2⟩ := ex_tags (calm := false)
    [(.call 0 (.malloc 100) 0, 0), (.call 0 (.malloc 100) 0, 5), (.call 0 (.malloc 100) 0, 0), (.call 0 (.free exA) 0, 0), (.call 0 (.malloc 100) 0, 0)]
    (fun h s T => (live (h.map Prod.fst) exA).isSome && ((live (h.map Prod.fst) (exA + 112)).isSome && (tagsAt exA h == [2, 1] && (tagsAt (exA + 112) h == [7] &&
      (tagsAt (exA + 224) h == [1] && h.any (fun et => et.1.freed == some exA))))))
    (by decide +kernel)
  simp only [Bool.and_eq_true, beq_iff_eq] at h2
  obtain ⟨q1, q2, q3, q4, q5, q6⟩ := h2
  refine ⟨h, s, T, h1, sysOk_zero, rfl, by unfold Ro.tagged; decide +kernel, ?_, q1, q2, q3, q4, q5, q6⟩
  refine ⟨0, 7, 0, by decide, by decide, by decide +kernel, ?_⟩
  rintro y (rfl | rfl)
  · decide +kernel
  · decide +kernel

end HM
