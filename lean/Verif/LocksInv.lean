import Verif.Locks
import Mathlib.Tactic.Tauto
import Mathlib.Tactic.DefEqTransformations
import Mathlib.Tactic.ByContra
/-
An invariant of the lock model: every thread follows a discipline (`Wf`), which determines the locks it holds, what it knows about
the initialisation, its arena, and which random states it still has to seed.
-/
namespace HM.L

/-- All locks but `init_lock`, in the order of `full_lock`. -/
def Dim.full (d : Dim) : List Lock := .region :: d.classLocks

/-- The order in which locks are taken. -/
def Dim.rank (d : Dim) : Lock → Nat
  | .init => 0
  | .region => 1
  | .cls a c => 2 + (a * d.nc + c)

theorem mem_classLocks {d : Dim} {l : Lock} : l ∈ d.classLocks ↔ ∃ a c, a < d.na ∧ c < d.nc ∧ l = .cls a c := by
  unfold Dim.classLocks
  simp only [List.mem_flatMap, List.mem_range, List.mem_map]
  constructor
  · rintro ⟨a, ha, c, hc, rfl⟩; exact ⟨a, c, ha, hc, rfl⟩
  · rintro ⟨a, c, ha, hc, rfl⟩; exact ⟨a, ha, c, hc, rfl⟩

theorem mem_full {d : Dim} {l : Lock} : l ∈ d.full ↔ l = .region ∨ l ∈ d.classLocks := by
  unfold Dim.full; simp

theorem init_not_full {d : Dim} : Lock.init ∉ d.full := by
  simp [mem_full, mem_classLocks]

theorem full_pairwise (d : Dim) : d.full.Pairwise fun x y => d.rank x < d.rank y := by
  unfold Dim.full
  refine List.pairwise_cons.mpr ⟨?_, ?_⟩
  · intro l hl
    obtain ⟨a, c, _, _, rfl⟩ := mem_classLocks.mp hl
    simp only [Dim.rank]; omega
  · unfold Dim.classLocks
    refine List.pairwise_flatMap.mpr ⟨?_, ?_⟩
    · intro a _
      refine List.pairwise_map.mpr (List.pairwise_lt_range.imp ?_)
      intro x y h
      simp only [Dim.rank]; omega
    · refine List.pairwise_lt_range.imp ?_
      intro a b hab x hx y hy
      simp only [List.mem_map, List.mem_range] at hx hy
      obtain ⟨c, hc, rfl⟩ := hx
      obtain ⟨e, he, rfl⟩ := hy
      simp only [Dim.rank]
      have : (a + 1) * d.nc ≤ b * d.nc := Nat.mul_le_mul_right _ hab
      rw [Nat.add_mul, Nat.one_mul] at this
      omega

theorem rank_inj {d : Dim} {x y : Lock} (hx : x ∈ d.full) (hy : y ∈ d.full) (h : d.rank x = d.rank y) : x = y := by
  have := full_pairwise d
  by_contra hne
  rcases (List.pairwise_iff_getElem.mp this) with h1
  obtain ⟨i, hi, rfl⟩ := List.getElem_of_mem hx
  obtain ⟨j, hj, rfl⟩ := List.getElem_of_mem hy
  rcases Nat.lt_trichotomy i j with k | rfl | k
  · have := h1 i j hi hj k; omega
  · exact hne rfl
  · have := h1 j i hj hi k; omega

/-- What a thread knows about the initialisation: nothing, that it has happened, or that it has not happened and cannot happen
because the thread holds `init_lock`. -/
inductive Know where
  | unknown
  | yes
  | no
  deriving DecidableEq

/-- The situation of a thread. `seed = some S`: it is setting up the random states (during the initialisation, or in a forked child), and has done those in `S`. -/
structure Stat where
  dis : Bool
  know : Know
  ar : Option Nat
  H : Lock → Prop
  seed : Option (Lock → Prop)

/-- The discipline. -/
def Wf (d : Dim) : Code → Stat → Prop
  | .done, σ => (∀ l, σ.H l ↔ (σ.dis = true ∧ l ∈ d.full)) ∧ σ.know ≠ .no ∧ (σ.ar.isSome → σ.know = .yes) ∧ (σ.dis = true → σ.know = .yes) ∧
      (∀ S, σ.seed = some S → ∀ l ∈ d.full, S l)
  | .fatal, _ => True
  | .bad, _ => False
  | .lock l k, σ => ((l = .init ∧ σ.know = .unknown) ∨ (l ∈ d.full ∧ σ.know = .yes)) ∧ (∀ x, σ.H x → d.rank x < d.rank l) ∧ σ.seed = none ∧
      Wf d k { σ with H := fun x => x = l ∨ σ.H x }
  | .unlock l k, σ => σ.H l ∧ (l = .init → σ.know ≠ .no) ∧ Wf d k { σ with H := fun x => x ≠ l ∧ σ.H x }
  | .newLock l k, σ => l ∈ d.full ∧ (σ.know = .no ∨ σ.H l) ∧ (∃ S, σ.seed = some S) ∧ Wf d k { σ with H := fun x => x ≠ l ∧ σ.H x }
  | .touch l k, σ => l ∈ d.full ∧ σ.H l ∧ σ.seed = none ∧ σ.know = .yes ∧ Wf d k σ
  | .seed l k, σ => ∃ S, σ.seed = some S ∧ Wf d k { σ with seed := some fun x => x = l ∨ S x }
  | .isInit k, σ => σ.know ≠ .no ∧ σ.seed = none ∧ Wf d (k true) { σ with know := .yes } ∧
      (σ.know = .unknown → (σ.H .init → Wf d (k false) { σ with know := .no, seed := some fun _ => False }) ∧ (¬ σ.H .init → Wf d (k false) σ))
  | .publish k, σ => σ.know = .no ∧ (∃ S, σ.seed = some S ∧ ∀ l ∈ d.full, S l) ∧ Wf d k { σ with know := .yes, seed := none }
  | .getArena k, σ => match σ.ar with
      | some a => σ.know = .yes ∧ Wf d (k a) σ
      | none => Wf d (k d.na) σ
  | .nextArena k, σ => ∀ n, Wf d (k n) σ
  | .setArena a k, σ => σ.ar = none ∧ a < d.na ∧ Wf d k { σ with ar := some a }
  | .uses a k, σ => (1 < d.na → σ.ar = some a) ∧ (d.na ≤ 1 → a = 0) ∧ σ.know = .yes ∧ Wf d k σ
  | .atfork k, σ => σ.know = .yes ∧ Wf d k σ
  | .handlers k, σ => σ.know ≠ .no ∧ σ.seed = none ∧ Wf d (k false) σ ∧ Wf d (k true) { σ with know := .yes }
  | .fork p c, σ => σ.seed = none ∧ Wf d p σ ∧ (c = postForkChild d .done → (∀ l, σ.H l ↔ l ∈ d.full) ∧ σ.know = .yes ∧ σ.dis = false)
  | .choose k, σ => ∀ n, Wf d (k n) σ

/-- A thread inside of a call that holds no locks and knows that the allocator is initialised. -/
structure Idle (σ : Stat) : Prop where
  know : σ.know = .yes
  H : σ.H = fun _ => False
  seed : σ.seed = none

theorem add_del {d : Dim} {H : Lock → Prop} {l : Lock} (h : ∀ x, H x → d.rank x < d.rank l) : (fun x => x ≠ l ∧ (x = l ∨ H x)) = H := by
  funext x
  refine propext ⟨fun ⟨a, b⟩ => b.resolve_left a, fun hx => ⟨?_, Or.inr hx⟩⟩
  rintro rfl
  have := h _ hx
  omega

theorem choose_wf {d : Dim} {σ : Stat} {a b : Code} (ha : Wf d a σ) (hb : Wf d b σ) : Wf d (.choose fun n => if n = 0 then a else b) σ := by
  intro n
  show Wf d (if n = 0 then a else b) σ
  split
  · exact ha
  · exact hb

theorem isInit_wf {d : Dim} {σ : Stat} {a b : Code} (hn : σ.know ≠ .no) (hs : σ.seed = none) (hH : σ.H = fun _ => False) (ha : Wf d a { σ with know := .yes })
    (hb : σ.know = .unknown → Wf d b σ) : Wf d (.isInit fun x => if x then a else b) σ := by
  refine ⟨hn, hs, ?_, fun hu => ⟨fun h => ?_, fun _ => ?_⟩⟩
  · exact ha
  · rw [hH] at h; exact h.elim
  · exact hb hu

theorem crit_wf {d : Dim} {σ : Stat} {l : Lock} {k : Code} (hi : Idle σ) (hl : l ∈ d.full) (hk : Wf d k σ) : Wf d (crit l k) σ := by
  have hr : ∀ x, σ.H x → d.rank x < d.rank l := by rw [hi.H]; exact fun _ h => h.elim
  refine ⟨Or.inr ⟨hl, hi.know⟩, hr, hi.seed, hl, Or.inl rfl, hi.seed, hi.know, choose_wf (by trivial) ⟨Or.inl rfl, ?_, ?_⟩⟩
  · intro _; show σ.know ≠ _; rw [hi.know]; simp
  · show Wf d k { σ with H := fun x => x ≠ l ∧ (x = l ∨ σ.H x) }
    rw [add_del hr]; exact hk

theorem region_full (d : Dim) : Lock.region ∈ d.full := by simp [mem_full]

theorem cls_full {d : Dim} {a c : Nat} (ha : a < d.na) (hc : c < d.nc) : Lock.cls a c ∈ d.full := mem_full.mpr (Or.inr (mem_classLocks.mpr ⟨a, c, ha, hc, rfl⟩))

theorem forLocks_wf {d : Dim} {f : Lock → Code → Code} {σ : Stat} {ls : List Lock} {k : Code} (hf : ∀ l ∈ ls, ∀ k, Wf d k σ → Wf d (f l k) σ) (hk : Wf d k σ) :
    Wf d (forLocks f ls k) σ := by
  induction ls with
  | nil => exact hk
  | cons l ls ih => exact hf l (by simp) _ (ih fun x hx => hf x (by simp [hx]))

theorem sections_wf {d : Dim} {σ : Stat} {k : Code} (hi : Idle σ) (hk : Wf d k σ) : Wf d (forLocks crit d.classLocks k) σ :=
  forLocks_wf (fun l hl _ h => crit_wf hi (mem_full.mpr (Or.inr hl)) h) hk

theorem lockAll_wf {d : Dim} {ls : List Lock} {k : Code} (σ : Stat) (h1 : ∀ l ∈ ls, l ∈ d.full) (h2 : ls.Pairwise fun x y => d.rank x < d.rank y)
    (h3 : ∀ x, σ.H x → ∀ l ∈ ls, d.rank x < d.rank l) (hn : σ.know = .yes) (hs : σ.seed = none) (hk : Wf d k { σ with H := fun x => x ∈ ls ∨ σ.H x }) :
    Wf d (forLocks .lock ls k) σ := by
  induction ls generalizing σ with
  | nil =>
    have : (fun x => x ∈ ([] : List Lock) ∨ σ.H x) = σ.H := by funext x; simp
    rw [this] at hk
    exact hk
  | cons l ls ih =>
    rw [List.pairwise_cons] at h2
    refine ⟨Or.inr ⟨h1 l (by simp), hn⟩, fun x hx => h3 x hx l (by simp), hs, ?_⟩
    refine ih _ (fun x hx => h1 x (by simp [hx])) h2.2 ?_ hn hs ?_
    · rintro x (rfl | hx) y hy
      · exact h2.1 y hy
      · exact h3 x hx y (by simp [hy])
    · have : (fun x => x ∈ l :: ls ∨ σ.H x) = fun x => x ∈ ls ∨ x = l ∨ σ.H x := by
        funext x; simp only [List.mem_cons]; exact propext ⟨by tauto, by tauto⟩
      rw [this] at hk
      exact hk

theorem fullLock_wf {d : Dim} {σ : Stat} {k : Code} (hi : Idle σ) (hk : Wf d k { σ with H := fun x => x ∈ d.full }) : Wf d (fullLock d k) σ := by
  have := lockAll_wf (k := k) σ (ls := d.full) (fun _ h => h) (full_pairwise d) (by rw [hi.H]; exact fun _ h => h.elim) hi.know hi.seed (by
    have : (fun x => x ∈ d.full ∨ σ.H x) = fun x => x ∈ d.full := by funext x; rw [hi.H]; simp
    rw [this]; exact hk)
  exact this

theorem unlockAll_wf {d : Dim} {ls : List Lock} {k : Code} (σ : Stat) (h1 : ∀ l ∈ ls, σ.H l) (h2 : ls.Pairwise fun x y => d.rank x < d.rank y) (hn : σ.know = .yes)
    (hk : Wf d k { σ with H := fun x => x ∉ ls ∧ σ.H x }) : Wf d (forLocks .unlock ls k) σ := by
  induction ls generalizing σ with
  | nil =>
    have : (fun x => x ∉ ([] : List Lock) ∧ σ.H x) = σ.H := by funext x; simp
    rw [this] at hk
    exact hk
  | cons l ls ih =>
    rw [List.pairwise_cons] at h2
    refine ⟨h1 l (by simp), fun _ => by rw [hn]; simp, ?_⟩
    refine ih _ (fun x hx => ⟨?_, h1 x (by simp [hx])⟩) h2.2 hn ?_
    · rintro rfl; have := h2.1 _ hx; omega
    · have : (fun x => x ∉ l :: ls ∧ σ.H x) = fun x => x ∉ ls ∧ x ≠ l ∧ σ.H x := by
        funext x; simp only [List.mem_cons]; exact propext ⟨by tauto, by tauto⟩
      rw [this] at hk
      exact hk

theorem fullUnlock_wf {d : Dim} {σ : Stat} {k : Code} (hn : σ.know = .yes) (hH : σ.H = fun x => x ∈ d.full) (hk : Wf d k { σ with H := fun _ => False }) :
    Wf d (fullUnlock d k) σ := by
  refine unlockAll_wf (d := d) σ (ls := d.full) (by rw [hH]; exact fun _ h => h) (full_pairwise d) hn ?_
  have : (fun x => x ∉ d.full ∧ σ.H x) = fun _ => False := by funext x; rw [hH]; simp
  rw [this]; exact hk

/-- The loops of `post_fork_child` and of the initialisation. -/
theorem setup_wf {d : Dim} {ls : List Lock} {k : Code} (σ : Stat) (S : Lock → Prop) (hS : σ.seed = some S) (h1 : ∀ l ∈ ls, l ∈ d.full)
    (h2 : ls.Pairwise fun x y => d.rank x < d.rank y) (h3 : σ.know = .no ∨ ∀ l ∈ ls, σ.H l)
    (hk : Wf d k { σ with H := fun x => x ∉ ls ∧ σ.H x, seed := some fun x => x ∈ ls ∨ S x }) :
    Wf d (forLocks (fun l k => .newLock l (.seed l k)) ls k) σ := by
  induction ls generalizing σ S with
  | nil =>
    have e1 : (fun x => x ∉ ([] : List Lock) ∧ σ.H x) = σ.H := by funext x; simp
    have e2 : (fun x => x ∈ ([] : List Lock) ∨ S x) = S := by funext x; simp
    rw [e1, e2, ← hS] at hk
    exact hk
  | cons l ls ih =>
    rw [List.pairwise_cons] at h2
    refine ⟨h1 l (by simp), h3.imp_right fun h => h l (by simp), ⟨S, hS⟩, S, hS, ?_⟩
    refine ih _ (fun x => x = l ∨ S x) rfl (fun x hx => h1 x (by simp [hx])) h2.2 (h3.imp_right fun h x hx => ⟨?_, h x (by simp [hx])⟩) ?_
    · rintro rfl; have := h2.1 _ hx; omega
    · have e1 : (fun x => x ∉ l :: ls ∧ σ.H x) = fun x => x ∉ ls ∧ x ≠ l ∧ σ.H x := by
        funext x; simp only [List.mem_cons]; exact propext ⟨by tauto, by tauto⟩
      have e2 : (fun x => x ∈ l :: ls ∨ S x) = fun x => x ∈ ls ∨ x = l ∨ S x := by
        funext x; simp only [List.mem_cons]; exact propext ⟨by tauto, by tauto⟩
      rw [e1, e2] at hk
      exact hk

theorem allocate_wf {d : Dim} {σ : Stat} {a : Nat} {k : Code} (hi : Idle σ) (ha : a < d.na) (h1 : 1 < d.na → σ.ar = some a) (hk : Wf d k σ) :
    Wf d (allocate d a k) σ := by
  intro c
  show Wf d (if c < d.nc then _ else _) σ
  by_cases hc : c < d.nc
  · rw [if_pos hc]
    exact ⟨h1, fun h => by omega, hi.know, crit_wf hi (cls_full ha hc) hk⟩
  · rw [if_neg hc]
    exact choose_wf hk (crit_wf hi (region_full d) (choose_wf hk (crit_wf hi (region_full d) hk)))

/-- The situation in which a call begins: in the application, not disabled. -/
structure Begin (σ : Stat) : Prop where
  know : σ.know ≠ .no
  ar : σ.ar.isSome → σ.know = .yes
  H : σ.H = fun _ => False
  seed : σ.seed = none

theorem Idle.begin {σ : Stat} (h : Idle σ) : Begin σ := ⟨by rw [h.know]; simp, fun _ => h.know, h.H, h.seed⟩

/-- `init`: the rest runs knowing that the allocator is initialised, with an arena in range. -/
theorem initWith_wf {d : Dim} (hna : 0 < d.na) {σ : Stat} (hb : Begin σ) (hr : ∀ a, σ.ar = some a → a < d.na) {slow : Code → Code} {k : Nat → Code}
    (hslow : ∀ c σ, σ.know = .unknown → σ.H = (fun _ => False) → σ.seed = none → (∀ a, σ.ar = some a → a < d.na) → (1 < d.na → σ.ar.isSome) →
      Wf d c { σ with know := .yes } → Wf d (slow c) σ)
    (hk : ∀ a ar, a < d.na → (1 < d.na → ar = some a) → (∀ b, ar = some b → b < d.na) → Wf d (k a) { σ with know := .yes, ar := ar }) :
    Wf d (initWith d slow k) σ := by
  unfold initWith
  by_cases h1 : d.na > 1
  · rw [if_pos h1]
    unfold Wf
    cases e : σ.ar with
    | some a =>
      have hy : σ.know = .yes := hb.ar (by rw [e]; rfl)
      refine ⟨hy, ?_⟩
      beta_reduce
      rw [if_pos (hr a e)]
      have := hk a (some a) (hr a e) (fun _ => rfl) (fun b hb => by cases hb; exact hr _ e)
      rw [← e, ← hy] at this
      exact this
    | none =>
      simp only
      rw [if_neg (Nat.lt_irrefl _)]
      intro n
      have hlt : n % d.na < d.na := Nat.mod_lt _ hna
      have hk' := hk (n % d.na) (some (n % d.na)) hlt (fun _ => rfl) (fun b hb => by cases hb; exact hlt)
      exact ⟨e, hlt, isInit_wf hb.know hb.seed hb.H hk' fun hu => hslow _ _ hu hb.H hb.seed (fun b hb => by cases hb; exact hlt) (fun _ => rfl) hk'⟩
  · rw [if_neg h1]
    have hk' := hk 0 σ.ar hna (fun h => absurd h h1) (fun b hb => hr b hb)
    exact isInit_wf hb.know hb.seed hb.H hk' fun hu => hslow _ _ hu hb.H hb.seed hr (fun h => absurd h h1) hk'

theorem pthreadAtfork_wf {d : Dim} (hna : 0 < d.na) {σ : Stat} (hi : Idle σ) (hr : ∀ a, σ.ar = some a → a < d.na) (har : 1 < d.na → σ.ar.isSome) {k : Code} (hk : Wf d k σ) :
    Wf d (pthreadAtfork d k) σ := by
  refine choose_wf hk ?_
  unfold initWith
  by_cases h1 : d.na > 1
  · rw [if_pos h1]
    unfold Wf
    cases e : σ.ar with
    | some a =>
      refine ⟨hi.know, ?_⟩
      beta_reduce
      rw [if_pos (hr a e)]
      exact allocate_wf hi (hr a e) (fun _ => e) hk
    | none => have := har h1; rw [e] at this; cases this
  · rw [if_neg h1]
    refine isInit_wf (by rw [hi.know]; simp) hi.seed hi.H ?_ (fun h => by rw [hi.know] at h; cases h)
    have : ({ σ with know := .yes } : Stat) = σ := by rw [← hi.know]
    rw [this]
    exact allocate_wf hi hna (fun h => absurd h h1) hk

theorem initSlowPath_wf {d : Dim} (hna : 0 < d.na) (c : Code) (σ : Stat) (hu : σ.know = .unknown) (hH : σ.H = fun _ => False) (hs : σ.seed = none) (hr : ∀ a, σ.ar = some a → a < d.na)
    (har : 1 < d.na → σ.ar.isSome) (hk : Wf d c { σ with know := .yes }) : Wf d (initSlowPath d (pthreadAtfork d) c) σ := by
  have hr' : ∀ x, σ.H x → d.rank x < d.rank .init := by rw [hH]; exact fun _ h => h.elim
  refine ⟨Or.inl ⟨rfl, hu⟩, hr', hs, ?_, hs, ?_, ?_⟩
  · show σ.know ≠ .no; rw [hu]; simp
  · refine ⟨Or.inl rfl, fun _ => by simp, ?_⟩
    show Wf d c { σ with know := .yes, H := fun x => x ≠ .init ∧ (x = .init ∨ σ.H x) }
    rw [add_del hr']; exact hk
  · refine fun _ => ⟨fun _ => ?_, fun h => absurd (Or.inl rfl) h⟩
    refine choose_wf (by trivial) ?_
    have := setup_wf (d := d) (ls := d.full) (k := .publish (.choose fun n => if n = 0 then .fatal
          else .unlock .init (pthreadAtfork d (.choose fun n => if n = 0 then .fatal else .atfork c)))) { σ with know := .no, H := fun x => x = .init ∨ σ.H x, seed := some fun _ => False } _ rfl (fun _ h => h)
      (full_pairwise d) (Or.inl rfl) ?_
    · exact this
    · refine ⟨rfl, ⟨_, rfl, fun l hl => Or.inl hl⟩, choose_wf (by trivial) ?_⟩
      have e : (fun x => x ∉ d.full ∧ (x = .init ∨ σ.H x)) = fun x => x = .init ∨ σ.H x := by
        funext x
        rw [hH]
        refine propext ⟨fun h => h.2, fun h => ⟨?_, h⟩⟩
        rcases h with rfl | h
        · exact init_not_full
        · exact h.elim
      refine ⟨⟨init_not_full, Or.inl rfl⟩, fun _ => by simp, ?_⟩
      show Wf d _ { σ with know := .yes, H := fun x => x ≠ .init ∧ (x ∉ d.full ∧ (x = .init ∨ σ.H x)), seed := none }
      have e2 : (fun x => x ≠ .init ∧ (x ∉ d.full ∧ (x = .init ∨ σ.H x))) = σ.H := by
        refine Eq.trans ?_ (add_del hr')
        funext x
        have := congrFun e x
        simp only [eq_iff_iff] at this
        exact propext (and_congr_right fun _ => this)
      rw [e2]
      have hk : Wf d c { σ with know := .yes, seed := none } := by rw [← hs]; exact hk
      exact pthreadAtfork_wf (σ := { σ with know := .yes, seed := none }) hna ⟨rfl, hH, rfl⟩ hr har (choose_wf (by trivial) ⟨rfl, hk⟩)

theorem init_wf {d : Dim} (hna : 0 < d.na) {σ : Stat} (hb : Begin σ) (hr : ∀ a, σ.ar = some a → a < d.na) {k : Nat → Code}
    (hk : ∀ a ar, a < d.na → (1 < d.na → ar = some a) → (∀ b, ar = some b → b < d.na) → Wf d (k a) { σ with know := .yes, ar := ar }) :
    Wf d (init d k) σ := by
  unfold init
  refine initWith_wf hna hb hr (fun c σ' hu hH hs h1 h2 hc => ?_) hk
  exact initSlowPath_wf hna c σ' hu hH hs h1 h2 hc

theorem smallSection_wf {d : Dim} {σ : Stat} (hi : Idle σ) {k : Code} (hk : Wf d k σ) : Wf d (smallSection d k) σ := by
  intro a c
  show Wf d (if a < d.na ∧ c < d.nc then _ else _) σ
  split
  · next h => exact crit_wf hi (cls_full h.1 h.2) hk
  · trivial

theorem quarantineDeallocate_wf {d : Dim} {σ : Stat} (hi : Idle σ) {k : Code} (hk : Wf d k σ) : Wf d (quarantineDeallocate k) σ :=
  choose_wf hk (crit_wf hi (region_full d) hk)

theorem enforceInit_wf {d : Dim} {σ : Stat} (hb : Begin σ) {k : Code} (hk : Wf d k { σ with know := .yes }) : Wf d (enforceInit k) σ :=
  isInit_wf hb.know hb.seed hb.H hk fun _ => trivial

theorem Begin.yes {σ : Stat} (hb : Begin σ) : Idle { σ with know := .yes } := ⟨rfl, hb.H, hb.seed⟩

theorem deallocateLarge_wf {d : Dim} {σ : Stat} (hb : Begin σ) {k : Code} (hk : Wf d k { σ with know := .yes }) : Wf d (deallocateLarge k) σ :=
  enforceInit_wf hb (crit_wf hb.yes (region_full d) (quarantineDeallocate_wf hb.yes hk))

theorem inSlabRegion_wf {d : Dim} {σ : Stat} (hb : Begin σ) {k1 k2 : Code} (h1 : Wf d k1 { σ with know := .yes }) (h2 : Wf d k2 { σ with know := .yes })
    (h3 : Wf d k2 σ) : Wf d (inSlabRegion k1 k2) σ :=
  isInit_wf hb.know hb.seed hb.H (choose_wf h1 h2) fun _ => h3

/-- A call ends. -/
theorem done_wf {d : Dim} {σ : Stat} (hb : Begin σ) (hd : σ.dis = false) : Wf d .done σ := by
  refine ⟨fun l => ?_, hb.know, hb.ar, fun h => ?_, fun S h => ?_⟩
  · rw [hb.H, hd]; simp
  · rw [hd] at h; cases h
  · rw [hb.seed] at h; cases h

theorem done_wf' {d : Dim} {σ : Stat} (hi : Idle σ) (hd : σ.dis = false) : Wf d .done σ := done_wf hi.begin hd

theorem realloc_wf {d : Dim} (hna : 0 < d.na) {σ : Stat} (hb : Begin σ) (hr : ∀ a, σ.ar = some a → a < d.na) (hd : σ.dis = false) : Wf d (reallocCode d) σ := by
  have move : ∀ small : Bool, ∀ σ' : Stat, Begin σ' → (∀ a, σ'.ar = some a → a < d.na) → σ'.dis = false →
      Wf d (init d fun a => allocate d a (.choose fun n => if n = 0 then .done else if small then smallSection d .done else deallocateLarge .done)) σ' := by
    intro small σ' hb hr hd
    refine init_wf hna hb hr fun a ar ha har hr => ?_
    have hi : Idle { σ' with know := .yes, ar := ar } := ⟨rfl, hb.H, hb.seed⟩
    refine allocate_wf hi ha har (choose_wf (done_wf' hi hd) ?_)
    cases small
    · exact deallocateLarge_wf hi.begin (done_wf' ⟨rfl, hb.H, hb.seed⟩ hd)
    · exact smallSection_wf hi (done_wf' hi hd)
  have large : ∀ σ' : Stat, Begin σ' → (∀ a, σ'.ar = some a → a < d.na) → σ'.dis = false →
      Wf d (enforceInit (crit .region (.choose fun n =>
        if n = 0 then .done
        else if n = 1 then quarantineDeallocate (crit .region .done)
        else if n = 2 then allocateLarge (.choose fun n => if n = 0 then .done else crit .region .done)
        else .choose fun n => init d fun a => allocate d a (.choose fun m => if m = 0 then .done else if decide (n = 0) then smallSection d .done else deallocateLarge .done)))) σ' := by
    intro σ' hb hr hd
    have hi := hb.yes
    have hdn : Wf d .done { σ' with know := .yes } := done_wf' hi hd
    refine enforceInit_wf hb (crit_wf hi (region_full d) fun n => ?_)
    beta_reduce
    split
    · exact hdn
    split
    · exact quarantineDeallocate_wf hi (crit_wf hi (region_full d) hdn)
    split
    · have hc : Wf d (.choose fun n => if n = 0 then .done else crit .region .done) { σ' with know := .yes } := choose_wf hdn (crit_wf hi (region_full d) hdn)
      exact choose_wf hc (crit_wf hi (region_full d) (choose_wf hc (crit_wf hi (region_full d) hc)))
    · exact fun n => move _ _ hi.begin hr hd
  intro n
  show Wf d (if n = 0 then _ else if n = 1 then _ else _) σ
  split
  · refine init_wf hna hb hr fun a ar ha har hr => ?_
    have hi : Idle { σ with know := .yes, ar := ar } := ⟨rfl, hb.H, hb.seed⟩
    exact allocate_wf hi ha har (done_wf' hi hd)
  split
  · exact done_wf hb hd
  · refine inSlabRegion_wf hb (choose_wf (done_wf' hb.yes hd) ?_) (large _ hb.yes.begin hr hd) (large _ hb hr hd)
    exact move true _ hb.yes.begin hr hd

/-- Every call follows the discipline. -/
theorem code_wf {d : Dim} (hna : 0 < d.na) {σ : Stat} (hb : Begin σ) (hr : ∀ a, σ.ar = some a → a < d.na) (hd : σ.dis = false) (c : LCall) (h1 : c ≠ .enable) (h2 : c ≠ .disable) :
    Wf d (c.code d) σ := by
  have hi := hb.yes
  have hdn : Wf d .done { σ with know := .yes } := done_wf' hi hd
  have hd0 : Wf d .done σ := done_wf hb hd
  cases c with
  | alloc =>
    refine choose_wf hd0 (init_wf hna hb hr fun a ar ha har hr => ?_)
    have hi : Idle { σ with know := .yes, ar := ar } := ⟨rfl, hb.H, hb.seed⟩
    exact allocate_wf hi ha har (done_wf' hi hd)
  | realloc => exact realloc_wf hna hb hr hd
  | free => exact choose_wf hd0 (inSlabRegion_wf hb (smallSection_wf hi hdn) (deallocateLarge_wf hi.begin hdn) (deallocateLarge_wf hb hdn))
  | usableSize =>
    exact choose_wf hd0 (inSlabRegion_wf hb (smallSection_wf hi hdn) (enforceInit_wf hi.begin (crit_wf hi (region_full d) hdn)) (enforceInit_wf hb (crit_wf hi (region_full d) hdn)))
  | objectSize => exact choose_wf hd0 (isInit_wf hb.know hb.seed hb.H (choose_wf (smallSection_wf hi hdn) (crit_wf hi (region_full d) hdn)) fun _ => hd0)
  | trim =>
    refine isInit_wf hb.know hb.seed hb.H (forLocks_wf (fun l hl k hk => ?_) hdn) fun _ => hd0
    split
    · exact hk
    · exact crit_wf hi (mem_full.mpr (Or.inr hl)) hk
  | mallinfo => exact isInit_wf hb.know hb.seed hb.H (crit_wf hi (region_full d) (sections_wf hi hdn)) fun _ => hd0
  | mallocInfo => exact isInit_wf hb.know hb.seed hb.H (sections_wf hi (crit_wf hi (region_full d) hdn)) fun _ => hd0
  | arenaInfo =>
    refine isInit_wf hb.know hb.seed hb.H (fun n => ?_) fun _ => hd0
    beta_reduce
    split
    · refine forLocks_wf (fun l hl k hk => ?_) hdn
      split
      · split
        · exact crit_wf hi (mem_full.mpr (Or.inr hl)) hk
        · exact hk
      · exact hk
    split
    · exact crit_wf hi (region_full d) hdn
    · exact hdn
  | binInfo =>
    refine isInit_wf hb.know hb.seed hb.H (fun a c => ?_) fun _ => hd0
    beta_reduce
    split
    · next h => exact crit_wf hi (cls_full h.1 h.2) hdn
    · exact hdn
  | disable => exact absurd rfl h2
  | enable => exact absurd rfl h1
  | fork =>
    refine ⟨hb.know, hb.seed, ?_, ?_⟩
    · refine ⟨hb.seed, hd0, fun h => ?_⟩
      unfold postForkChild at h
      cases h
    · exact fullLock_wf hi ⟨hb.seed, fullUnlock_wf rfl rfl (done_wf' ⟨rfl, rfl, hb.seed⟩ hd), fun _ => ⟨fun _ => Iff.rfl, rfl, hd⟩⟩

theorem disable_wf {d : Dim} (hna : 0 < d.na) {σ : Stat} (hb : Begin σ) (hr : ∀ a, σ.ar = some a → a < d.na) (hd : σ.dis = true) : Wf d (LCall.disable.code d) σ := by
  refine init_wf hna hb hr fun a ar ha har hr => ?_
  refine fullLock_wf ⟨rfl, hb.H, hb.seed⟩ ⟨fun l => ?_, by simp, fun _ => rfl, fun _ => rfl, fun S h => ?_⟩
  · simp only [hd, true_and]
  · rw [show σ.seed = none from hb.seed] at h; cases h

theorem enable_wf {d : Dim} {σ : Stat} (hn : σ.know = .yes) (hH : σ.H = fun x => x ∈ d.full) (hs : σ.seed = none) (hd : σ.dis = false) : Wf d (LCall.enable.code d) σ := by
  have e : ({ σ with know := .yes } : Stat) = σ := by rw [← hn]
  refine ⟨by rw [hn]; simp, hs, ?_, fun h => by rw [hn] at h; cases h⟩
  beta_reduce
  rw [if_pos rfl, e]
  exact fullUnlock_wf hn hH (done_wf' ⟨hn, rfl, hs⟩ hd)

theorem postForkChild_wf {d : Dim} {σ : Stat} (hn : σ.know = .yes) (hH : σ.H = fun x => x ∈ d.full) (hs : σ.seed = some fun _ => False) (hd : σ.dis = false) :
    Wf d (postForkChild d .done) σ := by
  refine setup_wf (d := d) (ls := d.full) σ _ hs (fun _ h => h) (full_pairwise d) (Or.inr (by rw [hH]; exact fun _ h => h)) ?_
  refine ⟨fun l => ?_, by rw [hn]; simp, fun _ => hn, fun _ => hn, fun S h l hl => ?_⟩
  · rw [hH, hd]; simp
  · cases h; exact Or.inl hl

end HM.L
