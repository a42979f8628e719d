import Verif.Props.Wild
import Verif.Props.Layout
/-
C55: where blocks are placed, what surrounds them, and that new blocks are zero, at every moment while the calls of several
threads are interleaved (C06, C13, C17, C18 and C19 say the same of applications that make one call at a time). The theorems
on placement hold even if the application's stores go anywhere (`WReach`, see C54).

The theorems are called partial for the reason given for C36: `CEnv` excludes that, during a call that asks for an alignment
above the page size, the kernel refuses to release the end of the mapping (see `c36_lead_unmapped_twice`).
-/
namespace HM

variable {g : Cfg} {ro : Ro} {ar : Nat → Nat} {calm : Bool} {h : List CEv} {s : CSys}

/-- What is known of a state reached with stray stores: the invariant holds of a world with the same protections. -/
theorem WReach.world (hg : Good g ar) (r : WReach g ro ar calm h s) :
    RoOk ro ∧ ro.g = g ∧ ∃ w, GInv ro w ∧ w.σ.vm.prot = s.σ.vm.prot ∧ ∀ p i, (hold h).live p = some i → w.G.eff p = none ∧ Sized ro w p i ∧
      ∀ u, u = i.size ∨ Usable ro s.σ p u → ∃ v, UsableIs ro w p v ∧ u ≤ v ∧ (Usable ro s.σ p u → v = u) := by
  obtain ⟨⟨s', r', S⟩, _⟩ := r.shadow hg
  obtain ⟨hro, e⟩ := r'.roOk hg
  obtain ⟨w, _, I⟩ := r'.inv hg
  refine ⟨hro, e, w, I.inv, by rw [I.σ, S.prot], fun p i hl => ?_⟩
  rw [← hold_dropStores] at hl
  have hs : ((hold (dropStores h)).live p).isSome = true := by rw [hl]; rfl
  refine ⟨I.eff hs, I.sized p i hl, fun u hu => ?_⟩
  obtain ⟨v, k1, k2⟩ := (I.sized p i hl).usable I.inv
  have hk : ∀ u, Usable ro s.σ p u → v = u := fun u hu => k1.uniq hro I.inv ((I.usable_iff hro hs).mp (S.usable hg r' hl hu))
  refine ⟨v, k1, ?_, hk u⟩
  rcases hu with rfl | hu
  · exact k2
  · exact (hk u hu).ge

/-- C55 (C17). The page before and the page behind the area of each size class of each arena can never be accessed. -/
theorem c55_separated_partial (hg : Good g ar) (r : WReach g ro ar calm h s) {a c x : Nat} (ha : a < g.nArena) (hc : c < nClasses g)
    (hx : (ro.regionStart a c ≤ x + 4096 ∧ x < ro.regionStart a c) ∨
      (ro.regionStart a c + g.classRegionSize ≤ x ∧ x < ro.regionStart a c + g.classRegionSize + 4096)) : s.σ.vm.prot (x / 4096) = .none := by
  obtain ⟨hro, rfl, w, I, e, _⟩ := r.world hg
  rw [← e]
  exact I.separated hro ha hc hx

/-- C55 (C17). A block of the application lies, with its canary, inside one area, or outside of all areas. Up to its size it
is covered by what the class of this area offers, which is what `malloc_usable_size` returns. -/
theorem c55_block_in_area_partial (hg : Good g ar) (r : WReach g ro ar calm h s) {p : Nat} {i : Info} (hl : (hold h).live p = some i)
    {u : Nat} (hu : u = i.size ∨ Usable ro s.σ p u) :
    (∃ a c, a < g.nArena ∧ c < nClasses g ∧ u ≤ g.offers c ∧ (Usable ro s.σ p u → u = g.offers c) ∧
      ∀ x, p ≤ x → x < p + max 1 (u + g.canarySize) → ro.area a c x) ∨
    (∀ a c, a < g.nArena → c < nClasses g → ∀ x, p ≤ x → x < p + max 1 (u + g.canarySize) → ¬ ro.area a c x) := by
  obtain ⟨hro, rfl, w, I, _, k⟩ := r.world hg
  obtain ⟨k1, _, k2⟩ := k p i hl
  obtain ⟨v, k3, k4, k5⟩ := k2 u hu
  rcases I.block_in_area hro k1 k3 with ⟨a, c, q1, q2, q3, q4⟩ | q
  · exact .inl ⟨a, c, q1, q2, q3 ▸ k4, fun hu => (k5 hu).symm.trans q3, fun x h1 h2 => q4 x h1 (by omega)⟩
  · exact .inr fun a c q1 q2 x h1 h2 => q a c q1 q2 x h1 (by omega)

/-- C55 (C18). The guard positions of an area can never be accessed. -/
theorem c55_guard_slab_partial (hg : Good g ar) (r : WReach g ro ar calm h s) {a c m x : Nat} (ha : a < g.nArena) (hc : c < nClasses g)
    (hm : m % (g.guardSlabsInterval + 1) = g.guardSlabsInterval) (hx : ro.area a c x)
    (h1 : ro.regionStart a c + m * g.slabSize c ≤ x) (h2 : x < ro.regionStart a c + (m + 1) * g.slabSize c) : s.σ.vm.prot (x / 4096) = .none := by
  obtain ⟨hro, rfl, w, I, e, _⟩ := r.world hg
  rw [← e]
  exact I.guard_slab hro ha hc hm hx h1 h2

/-- C55 (C18). A small block of the application lies, with its canary, inside one slab position, which is not a guard
position. -/
theorem c55_block_in_slab_partial (hg : Good g ar) (r : WReach g ro ar calm h s) {a c p : Nat} {i : Info} (ha : a < g.nArena) (hc : c < nClasses g)
    (hl : (hold h).live p = some i) (hp : ro.area a c p) :
    ∃ m, m % (g.guardSlabsInterval + 1) ≠ g.guardSlabsInterval ∧ (m + 1) * g.slabSize c ≤ g.classRegionSize ∧
      ro.regionStart a c + m * g.slabSize c ≤ p ∧ p + g.offers c + g.canarySize ≤ ro.regionStart a c + (m + 1) * g.slabSize c ∧ i.size ≤ g.offers c := by
  obtain ⟨hro, rfl, w, I, _, k⟩ := r.world hg
  obtain ⟨k1, _, k2⟩ := k p i hl
  obtain ⟨v, k3, k4, _⟩ := k2 _ (Or.inl rfl)
  obtain ⟨rfl, m, q1, q2, q3, q4⟩ := I.block_in_slab hro ha hc k3 hp
  exact ⟨m, q1, q2, q3, q4, k4⟩

/-- C55 (C19). A large block of the application occupies whole pages that can be accessed; the page before it and the page
behind it cannot, also while its neighbours are mapped, grown, shrunk, moved or released by other threads. -/
theorem c55_large_guards_partial (hg : Good g ar) (r : WReach g ro ar calm h s) {p : Nat} {i : Info} (hl : (hold h).live p = some i)
    (hn : ∀ a c, a < g.nArena → c < nClasses g → ¬ ro.area a c p) :
    ∃ e, p % 4096 = 0 ∧ e % 4096 = 0 ∧ p + i.size ≤ e ∧ p < e ∧ (∀ u, Usable ro s.σ p u → e = p + (u + 4095) / 4096 * 4096) ∧
      (∀ x, p ≤ x → x < e → s.σ.vm.prot (x / 4096) = .rw) ∧ (∀ x, e ≤ x → x < e + 4096 → s.σ.vm.prot (x / 4096) = .none) ∧
      4096 ≤ p ∧ (∀ x, p ≤ x + 4096 → x < p → s.σ.vm.prot (x / 4096) = .none) := by
  obtain ⟨hro, rfl, w, I, e, k⟩ := r.world hg
  obtain ⟨k1, _, k2⟩ := k p i hl
  obtain ⟨v, k3, k4, _⟩ := k2 _ (Or.inl rfl)
  obtain ⟨q1, q2, q3, q4, q5, q6⟩ := I.large_guards hro k1 k3 hn
  rw [e] at q4 q5 q6
  refine ⟨p + (v + 4095) / 4096 * 4096, q1, by omega, by omega, by omega, fun u hu => ?_, q4, q5, q3, q6⟩
  obtain ⟨v', j1, _, j2⟩ := k2 u (Or.inr hu)
  rw [k3.uniq hro I j1, j2 hu]

/-- C55 (C13). No byte of the slot of a zero byte block can be read or written. -/
theorem c55_zero_size_partial (hg : Good g ar) (r : WReach g ro ar calm h s) {p x : Nat} (hl : (hold h).live p = some ⟨0, none⟩)
    (h1 : p ≤ x) (h2 : x < p + 16) : s.σ.vm.prot (x / 4096) ≠ .rw := by
  obtain ⟨hro, _, w, I, e, k⟩ := r.world hg
  have h3 := (k p _ hl).2.1.2
  have e0 : adjustSizeForCanary ro.g 0 = 0 := by unfold adjustSizeForCanary; rw [if_neg (by omega)]
  simp only [e0] at h3
  rcases h3 with ⟨h3, a, i, k, h4⟩ | ⟨h3, _⟩
  · have hz : ro.g.classSize (ro.g.clsOf 0) = 0 := (clsOf_zero h3).mp rfl
    obtain ⟨q1, q2, _⟩ := h4.lt I
    obtain ⟨ha, hc, rfl, _⟩ := h4
    have := (classGeo ro.g hc).size_ge
    have h5 := ((I.clsVm a _ ha hc).off i x q1 (fun h => h.2 hz) (slot_range_slab hc q2 (by unfold inRange; omega))).1
    rw [← e, h5]; simp
  · omega

/-- C55 (C06). All usable bytes of a new block are zero when the call returns, with the write-after-free check or
zero-on-free, and for large requests in every configuration, if the application only stores to blocks it has, however its
calls are interleaved. (For `calloc` see C36; if the application's stores go anywhere, they may go to the new block.) -/
theorem c55_fresh_zero_partial (hg : Good g ar) (r : CReach g ro ar calm h s) {t : Nat} {c : Call} {x : Ret} {i : Info} {p : Nat}
    (hc : s.run t = some (c, .ret x)) (hr : c.request = some i) (hx : x.block = some p) (hcalloc : ∀ n k, c ≠ .calloc n k)
    (hz : g.maxSlab < i.size ∨ g.writeAfterFreeCheck = true ∨ g.zeroOnFree = true) {u : Nat}
    (hu : Usable ro s.σ p u) : ∀ y, p ≤ y → y < p + u → s.σ.vm.mem y = 0#8 := by
  obtain ⟨hro, rfl⟩ := r.roOk hg
  obtain ⟨w, _, I⟩ := r.inv hg
  obtain ⟨_, d⟩ := I.done hc
  have hgv : c.gives ((hold h).hand t) x = some (p, i) := by
    cases c <;> first | (cases hr; done) | (unfold Call.gives; simp only [hr, hx])
  obtain ⟨m, _⟩ := d.gives p i hgv
  rw [← I.σ] at hu ⊢
  exact d.fresh i hr hcalloc p hx hz u ((usable_iff hro I.inv I.content (by rw [m.blk]; simp) m.eff).mp hu)

/-! ### The hypotheses are met -/

/-- Thread 0 has a small block, thread 1 a large one, thread 4 a block of size 0, and thread 2 is in the middle of mapping
another large block, when the application stores to the last byte of the large block, to its guard and to a guard slab: the
first store has an effect, the others have not. -/
example : ∃ h s, WReach (exCfg false true) (exRo false true) (fun t => t % 4) false h s ∧ s.phase 2 = some none ∧
    (hold h).live exA = some ⟨100, none⟩ ∧ (exRo false true).area 0 7 exA ∧ Usable (exRo false true) s.σ exA 104 ∧
    (exRo false true).area 0 7 (exA + 4096) ∧ s.σ.vm.prot ((exA + 4096) / 4096) = .none ∧ s.σ.vm.mem (exA + 4096) = 0#8 ∧
    (hold h).live exBig = some ⟨200000, none⟩ ∧ (∀ a c, a < (exCfg false true).nArena → c < nClasses (exCfg false true) → ¬ (exRo false true).area a c exBig) ∧
    s.σ.vm.mem (exBig + 229375) = 7#8 ∧ s.σ.vm.mem (exBig + 229376) = 0#8 ∧ s.σ.vm.prot ((exBig + 229376) / 4096) = .none ∧
    (hold h).live 1099511631872 = some ⟨0, none⟩ := by
  obtain ⟨h, s, h1, h2⟩ := ex_wild (stats := false) (sealed := true) (calm := false)
    [.inv 0 (.malloc 100) 0, .go 0 99 0, .ret 0, .inv 4 (.malloc 0) 0, .inv 1 (.malloc 200000) 0, .go 1 99 exMapAt, .ret 1, .go 4 99 0, .ret 4,
      .inv 2 (.malloc 300000) 0, .go 2 2 (exMapAt + 16777216), .store (exBig + 229375) 7#8 0, .store (exBig + 229376) 7#8 0, .store (exA + 4096) 7#8 0]
    (fun h s => decide (s.phase 2 = some none) && (decide ((hold h).live exA = some ⟨100, none⟩) && (decide (usableB (exRo false true) s.σ exA = some 104) &&
      (decide (s.σ.vm.prot ((exA + 4096) / 4096) = .none) && (decide (s.σ.vm.mem (exA + 4096) = 0#8) && (decide ((hold h).live exBig = some ⟨200000, none⟩) &&
      (decide (s.σ.vm.mem (exBig + 229375) = 7#8) && (decide (s.σ.vm.mem (exBig + 229376) = 0#8) && (decide (s.σ.vm.prot ((exBig + 229376) / 4096) = .none) &&
      decide ((hold h).live 1099511631872 = some ⟨0, none⟩)))))))))) (by decide +kernel)
  simp only [Bool.and_eq_true, decide_eq_true_eq] at h2
  obtain ⟨q1, q2, q3, q4, q5, q6, q7, q8, q9, q10⟩ := h2
  have hb : ∀ a, a < (exCfg false true).nArena → ∀ c, c < nClasses (exCfg false true) →
      ¬ ((exRo false true).regionStart a c ≤ exBig ∧ exBig < (exRo false true).regionStart a c + (exRo false true).g.classRegionSize) := by decide +kernel
  exact ⟨h, s, h1, q1, q2, ⟨by decide +kernel, by decide +kernel⟩, usableB_usable q3, ⟨by decide +kernel, by decide +kernel⟩, q4, q5, q6,
    fun a c ha hc => hb a ha c hc, q7, q8, q9, q10⟩

/-- Thread 8 gets the block that thread 0 has filled and freed, in a build without quarantine, while thread 4 makes a call. -/
example : ∃ h s, CReach (exCfg false false false) (exRo false false false) (fun t => t % 4) false h s ∧
    (∃ c x, s.run 8 = some (c, .ret x) ∧ x.toNat = exA) ∧ (∃ h', h = .inv 8 (.malloc 90) 0 :: h' ∨ ∃ t c x, h = .ret t c x :: .inv 8 (.malloc 90) 0 :: h') ∧
    .store exA 7#8 ∈ h ∧ Usable (exRo false false false) s.σ exA 104 := by
  have e : ((runC (exRo false false false) (fun t => t % 4)
      [.inv 0 (.malloc 100) 0, .go 0 99 0, .ret 0, .inv 4 (.malloc 100) 0, .go 4 2 0, .store exA 7#8 exA, .inv 0 (.free exA) exA, .go 0 3 0, .go 4 99 0,
        .go 0 99 0, .ret 0, .inv 8 (.malloc 90) 0, .go 8 1 0, .ret 4, .go 8 99 0] [] ⟨exSt, fun _ => ⟨0, false⟩, fun _ => none, fun _ => exSt⟩).any fun x =>
      decide (x.2.phase 8 = some (some exA)) && ((match x.1 with
        | .ret _ _ _ :: .inv 8 (.malloc 90) 0 :: _ => true
        | _ => false) && (x.1.any (fun e => match e with
        | .store x v => decide (x = exA) && decide (v = 7#8)
        | _ => false) && decide (usableB (exRo false false false) x.2.σ exA = some 104)))) = true := by decide +kernel
  rw [Option.any_eq_true] at e
  obtain ⟨⟨h, s⟩, h1, h2⟩ := e
  simp only [Bool.and_eq_true, List.any_eq_true, decide_eq_true_eq] at h2
  obtain ⟨q1, q2, ⟨e, q3, q4⟩, q5⟩ := h2
  refine ⟨h, s, runC_reach (.init (exInit false false false) fun _ => rfl) h1, CSys.phase_ret q1, ?_, ?_, usableB_usable q5⟩
  · split at q2
    · exact ⟨_, Or.inr ⟨_, _, _, rfl⟩⟩
    · cases q2
  · split at q4
    · simp only [Bool.and_eq_true, decide_eq_true_eq] at q4
      obtain ⟨rfl, rfl⟩ := q4
      exact q3
    · cases q4

end HM
