import Verif.Bounds
import Verif.ConcInv
import Verif.Props.DataBlind
import Verif.Props.Fail
import Verif.Props.Threads
/-
C74: the bookkeeping stays inside of the memory that is set aside for it.

The table of large blocks is kept in one of two arrays of MAX_REGION_TABLE_SIZE = CLASS_REGION_SIZE / PAGE_SIZE / 24 entries of 24 bytes (h_malloc.c:925, 965,
967), which begin at a page boundary and are followed by something that begins at a page boundary. The slabs of a size class are described in an array of
MAX_METADATA_MAX = CLASS_REGION_SIZE / PAGE_SIZE entries (h_malloc.c:306, 958).

`CSys.moves` (Props.DataBlind) are the executions of any application, including incorrect ones, with any number of threads: any calls with any arguments,
interleaved at any action, with any answers of the system, and stores anywhere.
-/
namespace HM

variable {g : Cfg} {ro : Ro} {ar : Nat → Nat}

/-- The state and all calls in progress. -/
structure CSys.Fit (g : Cfg) (s : CSys) : Prop where
  σ : s.σ.Fit g
  run : ∀ t c P, s.run t = some (c, P) → P.Keeps (St.Fit g)

theorem CSys.Fit.upd {s : CSys} (h : s.Fit g) {t : Nat} {c : Call} {P : Prog Ret} (hP : P.Keeps (St.Fit g)) :
    ∀ u d Q, HM.upd s.run t (some (c, P)) u = some (d, Q) → Q.Keeps (St.Fit g) := by
  intro u d Q hq
  unfold HM.upd at hq
  split at hq
  · cases hq; exact hP
  · exact h.run u d Q hq

theorem CSys.Fit.move {s s' : CSys} (e : ro.g = g) (h : s.Fit g) {m : Move} {o : List Returned} (hm : s.move ro ar m = .ok (s', o)) : s'.Fit g := by
  subst e
  cases m with
  | inv t c =>
    simp only [CSys.move] at hm
    split at hm
    · cases hm; exact ⟨h.σ, h.upd (Fit.prog ro _ c)⟩
    · cases hm; exact h
  | go t ch =>
    simp only [CSys.move] at hm
    split at hm
    · rename_i c β l f k hr
      have k := Keeps.act (h.run _ _ _ hr)
      split at hm
      · rename_i hf
        cases hm
        exact ⟨k.1 _ _ _ _ _ _ h.σ hf, h.upd (k.2 _)⟩
      all_goals cases hm
    · cases hm; exact h
  | ret t =>
    simp only [CSys.move] at hm
    split at hm
    · cases hm
      refine ⟨h.σ, fun u d Q hq => ?_⟩
      replace hq : (if u = t then none else s.run u) = some (d, Q) := hq
      split at hq
      · cases hq
      · exact h.run u d Q hq
    · cases hm; exact h
  | store x v =>
    simp only [CSys.move] at hm
    cases hm; exact ⟨h.σ, h.run⟩
  | errno t e =>
    simp only [CSys.move] at hm
    split at hm
    · cases hm; exact ⟨h.σ, h.run⟩
    · cases hm; exact h
  | fork t =>
    simp only [CSys.move] at hm
    split at hm
    · cases hm; exact ⟨h.σ, fun _ _ _ hq => by cases hq⟩
    · cases hm; exact h
  | other pg pr data =>
    simp only [CSys.move] at hm
    cases hm; exact ⟨h.σ, h.run⟩

theorem CSys.Fit.moves (e : ro.g = g) : ∀ (A : List Move) {s s' : CSys} {o : List Returned}, s.Fit g → s.moves ro ar A = .ok (s', o) → s'.Fit g := by
  intro A
  induction A with
  | nil => intro s s' o h hm; cases hm; exact h
  | cons m A ih =>
    intro s s' o h hm
    simp only [CSys.moves, Out.next] at hm
    cases hs : s.move ro ar m with
    | ok x =>
      obtain ⟨s1, o1⟩ := x
      rw [hs] at hm
      simp only at hm
      cases h2 : s1.moves ro ar A with
      | ok y =>
        obtain ⟨s2, o2⟩ := y
        rw [h2] at hm
        cases hm
        exact ih (h.move e hs) h2
      | _ => rw [h2] at hm; cases hm
    | _ => rw [hs] at hm; cases hm

theorem Initialised.fit {σ : St} (hi : Initialised g ro σ) : σ.Fit g := by
  obtain ⟨l, chs, tl, tl', hrun⟩ := hi
  have hk := Fit.initSlowPath g l
  generalize initSlowPath g l = P at hk hrun
  exact hk.run ⟨.inl rfl, fun a c => ⟨Nat.zero_le _, Nat.zero_le _⟩⟩ hrun

/-- **C74.** Whatever the application does, the table of large blocks (24 bytes for each entry) is not larger than the memory between the beginning of one of
its arrays and the end of the last page of that array; it does not have more entries than the array if the array has room for the 128 entries with which it
begins. A size class never uses more entries of its array of slabs than the array has, nor more than there are slabs in its part of the address space. -/
theorem c74_bounds (hv : g.Valid) {σ : St} (hi : Initialised g ro σ) {tl : Nat → Tl} {A : List Move} {s : CSys} {o : List Returned}
    (h : CSys.moves ro ar ⟨σ, tl, fun _ => none, fun _ => σ⟩ A = .ok (s, o)) :
    s.σ.rt.total * 24 ≤ (g.classRegionSize / 4096 / 24 * 24 + 4095) / 4096 * 4096 ∧
    (128 ≤ g.classRegionSize / 4096 / 24 → s.σ.rt.total ≤ g.classRegionSize / 4096 / 24) ∧
    ∀ a c, c < nClasses g → (s.σ.sc a c).metaAllocated ≤ g.classRegionSize / 4096 ∧ (s.σ.sc a c).metaAllocated * g.slabSize c ≤ g.classRegionSize := by
  have k := (CSys.Fit.moves (g := g) hi.post.cfg A ⟨hi.fit, fun _ _ _ hq => by cases hq⟩ h).σ
  have hN : g.maxRegionTable = g.classRegionSize / 4096 / 24 := rfl
  have h1 := k.1
  have hmin := hv.classRegionMin
  rw [hN] at h1
  refine ⟨?_, ?_, fun a c hc => ?_⟩
  · omega
  · intro h2; omega
  · have h3 := (k.2 a c).1
    have h4 : g.metaMax c = g.classRegionSize / g.slabSize c := rfl
    have h5 := (classGeo g hc).slab_ge
    constructor
    · exact le_trans h3 (h4 ▸ Nat.div_le_div_left h5 (by decide))
    · exact le_trans (Nat.mul_le_mul_right _ h3) (metaMax_le hc)

theorem shl_le {n k K : Nat} (h : k ≤ K) : shl64 n k ≤ n * 2 ^ K :=
  le_trans (Nat.mod_le _ _) (Nat.mul_le_mul_left _ (Nat.pow_le_pow_right (by decide) h))

/-- If the application is correct, nothing has been recorded outside of the part in use: neither in the array of the table of large blocks, nor in the other
array, nor in the arrays of the slabs. Nothing is recorded outside of the arrays of the quarantine of a size class (h_malloc.c:256, 260), which have as many
entries as there are for the smallest blocks. -/
theorem c74_unused (hg : Good g ar) {calm : Bool} {h : List CEv} {s : CSys} (r : CReach g ro ar calm h s) :
    (∀ i, s.σ.rt.total ≤ i → (s.σ.rt.tabs s.σ.rt.cur i).p = 0) ∧ (∀ i, (s.σ.rt.tabs (!s.σ.rt.cur) i).p = 0) ∧
    ∀ a c i, a < g.nArena → c < nClasses g →
      ((s.σ.sc a c).metaAllocated ≤ i → (s.σ.sc a c).slabs i = Slab.zero) ∧
      (g.slabQRandom * 2 ^ (g.maxSlabShift - 4) ≤ i → (s.σ.sc a c).qrand i = 0) ∧ (g.slabQQueue * 2 ^ (g.maxSlabShift - 4) ≤ i → (s.σ.sc a c).qqueue i = 0) := by
  obtain ⟨w, n0, k⟩ := r.inv hg
  obtain ⟨_, e⟩ := r.roOk hg
  subst e
  have kσ := k.σ
  refine ⟨fun i hi => ?_, fun i => ?_, fun a c i ha hc => ?_⟩
  · have := k.inv.rt.outside i (by rw [kσ]; exact hi)
    rw [kσ] at this; exact this
  · have := k.inv.rt.spare i
    rw [kσ] at this; exact this
  · obtain ⟨P, E, F, hS⟩ := k.inv.cls a c ha hc
    rw [kσ] at hS
    have hsh := (classGeo ro.g hc).shift_le
    refine ⟨fun hi => hS.bits.zero i fun hA => ?_, fun hi => ?_, fun hi => ?_⟩
    · have := hS.bits.act i hA
      omega
    · by_contra hn
      obtain ⟨x, y, hq⟩ := hS.qarr.r2 i hn
      have h1 := (hS.qarr.r1 _ _ _ hq).2
      have h2 := shl_le (n := ro.g.slabQRandom) hsh
      omega
    · by_contra hn
      obtain ⟨x, y, hq⟩ := hS.qarr.q2 i hn
      have h1 := (hS.qarr.q1 _ _ _ hq).2
      have h2 := shl_le (n := ro.g.slabQQueue) hsh
      omega

/-- In small configurations the table of large blocks has more entries than its array: with size class regions of 1 MiB (the least value that is accepted) the
array has 10 entries, and the table begins with 128. They are still within the page of the array (`c74_bounds`). -/
theorem c74_short_array : ∃ (g : Cfg) (ro : Ro) (σ : St), g.Valid ∧ Initialised g ro σ ∧ g.classRegionSize / 4096 / 24 = 10 ∧ σ.rt.total = 128 :=
  ⟨tinyCfg, tinyRo, _, tiny_good.valid, tiny_init, by decide, rfl⟩

/-! ### Examples -/

/-- The entries of the array of slabs in use by class `c` of arena `a`. -/
def Out.metaAllocated (a c : Nat) : Out → Option Nat
  | .ok (s, _) => some (s.σ.sc a c).metaAllocated
  | _ => none

/-- Two threads allocate 100 bytes (size class 7), with a store behind a block (`exMoves` of Props.DataBlind): a first page of entries is in use. -/
example : (exCfg false true).Valid ∧ Initialised (exCfg false true) (exRo false true) exSt ∧
    (exData [.store (exA + 300) 7#8]).metaAllocated 0 7 = some (4096 / (exCfg false true).sizeofSlabMetadata) := ⟨exCfg_valid _ _, exInit _ _, by decide +kernel⟩

/-- A state in the middle of calls of several threads, with a slab in use and a block in quarantine. -/
example : ∃ h s, CReach (exCfg false true) (exRo false true) (fun t => t % 4) false h s ∧ 0 < (s.σ.sc 0 7).metaAllocated ∧ (s.σ.sc 0 7).qrand 0 = exA ∧
    s.phase 1 = some none := by
  obtain ⟨h, s, h1, h2⟩ := ex_conc (stats := false) (sealed := true) (calm := false) (exThreads ++ [.inv 0 (.free exA) exA, .go 0 99 0])
    (fun _ s => decide (0 < (s.σ.sc 0 7).metaAllocated) && decide ((s.σ.sc 0 7).qrand 0 = exA) && decide (s.phase 1 = some none)) (by decide +kernel)
  simp only [Bool.and_eq_true, decide_eq_true_eq] at h2
  exact ⟨h, s, h1, h2.1.1, h2.1.2, h2.2⟩

end HM
