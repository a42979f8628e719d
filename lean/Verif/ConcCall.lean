import Verif.Conc
import Verif.Facts
/-
What a call does when other threads make calls at the same time.
-/
namespace HM

variable {ro : Ro} {t : Nat}

/-! ### Blocks of a given holder -/

section
variable {w : World}

theorem UserByte.disjoint (hro : RoOk ro) (hi : GInv ro w) {p q x : Nat} (hp : UserByte ro w p x) (hq : UserByte ro w q x) : p = q := by
  have large : ∀ {p s g}, w.σ.rt.Has ⟨p, s, g⟩ → inRange p (pageUp (w.G.effSize ⟨p, s, g⟩)) x → w.G.own (x / PAGE) = .reg p :=
    fun h1 h2 => hi.reg_body h1 (inPages_of_pageUp (hi.reg _ h1).pmod h2)
  rcases hp with ⟨a, c, i, k, h1, h2, h3⟩ | ⟨s, g, h1, h3⟩ <;> rcases hq with ⟨a', c', i', k', k1, k2, k3⟩ | ⟨s', g', k1, k3⟩
  · exact (h1.disjoint hro hi k1 (x := x) (by unfold inRange at *; omega) (by unfold inRange at *; omega)).1
  · have e1 := h1.own hro hi (x := x) (by unfold inRange at *; omega)
    rw [large k1 k3] at e1; exact absurd e1 (by simp)
  · have e1 := k1.own hro hi (x := x) (by unfold inRange at *; omega)
    rw [large h1 h3] at e1; exact absurd e1 (by simp)
  · have e1 := large h1 h3
    rw [large k1 k3] at e1; injection e1 with e1; exact e1.symm

/-- Block `b` changes hands. -/
def World.give (w : World) (b : Nat) (o : Holder) : World := ⟨w.σ, { w.G with blk := fun x => if x = b then o else w.G.blk x }⟩

theorem give_self (w : World) (b : Nat) (o : Holder) : (w.give b o).G.blk b = o := if_pos rfl
theorem give_other (w : World) {b x : Nat} (o : Holder) (h : x ≠ b) : (w.give b o).G.blk x = w.G.blk x := if_neg h

theorem give_inv (hi : GInv ro w) {b : Nat} {o : Holder} (hb : w.G.blk b ≠ .nobody) (ho : o ≠ .nobody) (he : w.G.eff b = none) :
    GInv ro (w.give b o) := by
  refine ⟨hi.cls, hi.clsVm, hi.gaps, hi.rt, hi.reg, hi.slabOwn, hi.regOwn, hi.regRw, hi.regLo, hi.regHi, hi.qrOwn, hi.qqOwn, hi.qrOk, hi.qqOk, hi.qi, hi.mapped,
    fun p => ?_, fun p n e => ?_, hi.cache, hi.qprot⟩
  · by_cases h : p = b
    · subst h; rw [give_self]; exact ⟨fun _ => (hi.blk p).mp hb, fun _ => ho⟩
    · rw [give_other _ _ h]; exact hi.blk p
  · have h : p ≠ b := by rintro rfl; rw [show (w.give p o).G.eff p = w.G.eff p from rfl, he] at e; cases e
    rw [give_other _ _ h]; exact hi.eff p n e

theorem give_trans (hi : GInv ro w) {b : Nat} {o : Holder} {hs : Holder → Prop} (hb : w.G.blk b ≠ .nobody) (ho : o ≠ .nobody) (he : w.G.eff b = none)
    (hh : ∀ h, hs h → h ≠ o ∧ h ≠ w.G.blk b) : Trans ro hs w (w.give b o) where
  inv := give_inv hi hb ho he
  same := fun h _ hx => by
    obtain ⟨h1, h2⟩ := hh h hx
    refine ⟨⟨fun p => ?_, fun _ _ _ _ _ _ hs => ⟨hs, rfl, fun _ _ => rfl⟩, fun _ _ hr => ⟨hr, rfl, fun _ _ => rfl⟩⟩,
      fun _ _ _ => Iff.rfl, fun _ _ _ _ => rfl, fun _ _ _ _ => rfl⟩
    by_cases e : p = b
    · subst e; rw [give_self]; exact ⟨fun e => absurd e.symm h1, fun e => absurd e.symm h2⟩
    · rw [give_other _ _ e]
  content := id
  stat := fun h => ⟨h.small, h.large⟩
  delay := ⟨fun _ _ => Nat.le_refl _, fun _ _ _ _ => Nat.le_refl _, fun _ _ _ _ _ _ => Nat.le_add_right _ _, Nat.le_refl _, fun _ => Nat.le_add_right _ _, rfl⟩

theorem give_keep (w : World) {b x : Nat} (o : Holder) (h : x ≠ b) : KeepB ro w (w.give b o) x :=
  ⟨give_other w o h, fun _ _ _ _ hs => ⟨hs, rfl, fun _ _ => rfl⟩, fun _ _ hr => ⟨hr, rfl, fun _ _ => rfl⟩⟩

theorem give_sized {b p : Nat} {o : Holder} {i : Info} (h : Sized ro w p i) : Sized ro (w.give b o) p i := h

/-- The size `malloc_usable_size` returns for a block with an intact canary. -/
theorem usable_iff (hro : RoOk ro) (hi : GInv ro w) (hc : Content ro w) {p u : Nat} (hb : w.G.blk p ≠ .nobody) (he : w.G.eff p = none) :
    Usable ro w.σ p u ↔ UsableIs ro w p u := by
  have hi' := (GInv.setTags (give_inv (o := .thr 0) hi hb (by simp) he) none)
  have m : Mine 0 p ((w.give p (.thr 0)).setTags none) := ⟨give_self _ _ _, he⟩
  have hc' : Content ro ((w.give p (.thr 0)).setTags none) := hc
  have h1 := (hUsableSize_wp (m := .seq) (t := 0) (F := fun _ _ _ => False) (p := p) (tl := ⟨0, false⟩) hro hi' (fun _ => Or.inl m)
    ⟨fun h => by rw [m.blk] at h; exact absurd h (by simp), fun _ h => (hc'.canary_ok hi' h).elim, fun _ _ _ _ _ _ e => absurd e (by simp), fun _ _ _ _ e => absurd e (by simp)⟩).run hi'
    (chs := fun _ => Choice.quiet) (fun n => (Env.quiet _).fair fun _ e => nomatch e)
  have h0 : p ≠ 0 := mine_ne_zero hro hi' m
  rw [show ((w.give p (.thr 0)).setTags none).σ = w.σ from rfl] at h1
  unfold Usable
  revert h1
  cases (hUsableSize ro p).run (fun _ => Choice.quiet) w.σ ⟨0, false⟩ with
  | ok r =>
    obtain ⟨σ', tl', v⟩ := r
    rintro ⟨G', _, _, _, h3, ⟨h2, _⟩ | ⟨_, _, _, h4, _⟩⟩
    · exact absurd h2 h0
    · have h4 : UsableIs ro w p v := h4
      have e2 : σ' = w.σ := congrArg World.σ (h3 rfl)
      constructor
      · rintro ⟨tl2, h5⟩; cases h5; exact h4
      · intro h5
        have := h4.uniq hro hi h5
        subst this; subst e2
        exact ⟨tl', rfl⟩
  | fatal m => rintro ⟨_, _, _, h⟩; exact h.elim
  | segv => rintro ⟨_, _, _, h⟩; exact h.elim
  | ub m => rintro ⟨_, _, _, h⟩; exact h.elim
  | hang => rintro ⟨_, _, _, h⟩; exact h.elim

theorem UsableIs.user' {p u x : Nat} (he : w.G.eff p = none) (h : UsableIs ro w p u) (hx : inRange p u x) : UserByte ro w p x :=
  UsableIs.user (w := w.give p (.thr 0)) (t := 0) ⟨give_self _ _ _, he⟩ h hx

theorem app_eff (hi : GInv ro w) {p : Nat} (h : w.G.blk p = .app) : w.G.eff p = none := by
  cases e : w.G.eff p with
  | none => rfl
  | some n => obtain ⟨⟨t, ht⟩, _⟩ := hi.eff p n e; rw [h] at ht; exact absurd ht (by simp)

end

/-! ### Calls -/

/-- The only abnormal end: the kernel refuses a system call for a reason other than lack of memory (or freed memory was
written to, which does not happen). -/
def CF (ro : Ro) (b : Bad) (ch : Choice) (w : World) : Prop :=
  match b with
  | .fatal _ => SysOther ch ∨ Dirty ro w
  | _ => False

/-- What is known when the call in thread `t`, which was given `hd` in state `σ0`, begins. -/
structure CReady (ro : Ro) (t : Nat) (hd : Option (Nat × Info)) (σ0 : St) (w : World) : Prop where
  inv : GInv ro w
  content : Content ro w
  hand : ∀ p i, hd = some (p, i) → Mine t p w ∧ Sized ro w p i ∧
    ∀ u, (Usable ro σ0 p u ↔ UsableIs ro w p u) ∧ (Usable ro σ0 p u → ∀ x, inRange p u x → w.σ.vm.mem x = σ0.vm.mem x)

/-- The call `c` may be made with `hd`. -/
def ArgOk (ro : Ro) (hd : Option (Nat × Info)) (σ0 : St) : Call → Prop
  | .free p => (p = 0 ∧ hd = none) ∨ ∃ i, hd = some (p, i)
  | .freeSized p n => (p = 0 ∧ hd = none) ∨ hd = some (p, ⟨n, none⟩)
  | .realloc p _ => (p = 0 ∧ hd = none) ∨ ∃ i, hd = some (p, i) ∧ ¬ OverAligned ro.g i
  | .usableSize p => (p = 0 ∧ hd = none) ∨ ∃ i, hd = some (p, i)
  | .objectSize x => (x = 0 ∧ hd = none) ∨ ∃ b i u, hd = some (b, i) ∧ Usable ro σ0 b u ∧ b ≤ x ∧ x < b + u
  | _ => hd = none

/-- What `malloc_object_size(x)` returns for a pointer into block `b` with `u` usable bytes: in the area for small
allocations the number of bytes from `x` to the end, for large ones the size, if `x` points to the start. -/
def ObjectSizeIs (ro : Ro) (b u x n : Nat) : Prop :=
  if ro.inSlab x then n = b + u - x else if x = b then n = u else n = W64 - 1

/-- New blocks requested as described by `i` are zero. -/
def ZeroFor (ro : Ro) (i : Info) : Prop := ro.g.maxSlab < i.size ∨ ro.g.writeAfterFreeCheck = true ∨ ro.g.zeroOnFree = true

/-- The call that returned `r` has given up block `p`. -/
def Call.gone (r : Ret) (p : Nat) : Call → Prop
  | .free q => q = p
  | .freeSized q _ => q = p
  | .realloc q _ => q = p ∧ ∃ x, r.block = some x ∧ x ≠ p
  | _ => False

/-- The call frees block `p`. -/
def Call.drops (p : Nat) : Call → Prop
  | .free q => q = p
  | .freeSized q _ => q = p
  | _ => False

/-- What is known of the block that was freed by the call. `n0` is the number of regions that had been put in quarantine when
the call began. -/
structure Left (ro : Ro) (t : Nat) (c : Call) (hd : Option (Nat × Info)) (σ0 : St) (n0 : Nat) (r : Ret) (w : World) : Prop where
  gone : ∀ p, p ≠ 0 → c.gone r p → w.G.blk p ≠ .thr t
  quar : ∀ p i, c.drops p → hd = some (p, i) → ro.inSlab p = false → ro.g.regionQuarantine = true → ∀ u, Usable ro σ0 p u → u < ro.g.regionQSkip →
    ∀ y, p ≤ y + PAGE → y < p + u + PAGE → ro.g.regionDelay + n0 + 1 ≤ pageDelay ro.g w (y / PAGE) + w.G.pushes

/-- What is known when the call returns `r`: it has the block it gives to the application, and the contents are right. -/
structure Done (ro : Ro) (t : Nat) (c : Call) (hd : Option (Nat × Info)) (σ0 : St) (n0 : Nat) (r : Ret) (w : World) : Prop where
  gives : ∀ q i, c.gives hd r = some (q, i) → Mine t q w ∧ Sized ro w q i
  zero : ∀ n k, c = .calloc n k → ∀ q, r.block = some q → ∀ x, inRange q (n * k) x → w.σ.vm.mem x = 0#8
  moved : ∀ p n, c = .realloc p n → p ≠ 0 → ∀ q, r.block = some q → ∀ u, Usable ro σ0 p u → ∀ x, x < n → x < u →
    w.σ.vm.mem (q + x) = σ0.vm.mem (p + x)
  kept : ∀ p n, c = .realloc p n → r.block = none → ∀ u, Usable ro σ0 p u → ∀ x, inRange p u x → w.σ.vm.mem x = σ0.vm.mem x
  usable : ∀ p, c = .usableSize p → ∃ u, r = .num u ∧ (p = 0 → u = 0) ∧ (p ≠ 0 → Usable ro σ0 p u) ∧
    ∀ x, inRange p u x → w.σ.vm.mem x = σ0.vm.mem x
  object : ∀ x, c = .objectSize x → ∃ n, r = .num n ∧ (x = 0 → n = 0) ∧
    ∀ b i, hd = some (b, i) → ∀ u, Usable ro σ0 b u → ObjectSizeIs ro b u x n ∧ ∀ y, inRange b u y → w.σ.vm.mem y = σ0.vm.mem y
  fresh : ∀ i, c.request = some i → (∀ n k, c ≠ .calloc n k) → ∀ q, r.block = some q → ZeroFor ro i →
    ∀ u, UsableIs ro w q u → ∀ x, q ≤ x → x < q + u → w.σ.vm.mem x = 0#8
  rest : ∀ p n, c = .realloc p n → ∀ q, r.block = some q → ZeroFor ro ⟨n, none⟩ → ∀ v, UsableIs ro w q v → ∀ x, x < v →
    (p = 0 ∨ p ≠ 0 ∧ ∃ u, Usable ro σ0 p u ∧ (u ≤ x ∨ q ≠ p ∧ adjustSizeForCanary ro.g n ≤ ro.g.maxSlab ∧ n ≤ x)) → w.σ.vm.mem (q + x) = 0#8
  left : Left ro t c hd σ0 n0 r w

section
variable {hd : Option (Nat × Info)} {σ0 : St} {n0 : Nat} {w w' : World}

theorem CF.sys : FSys (CF ro) := fun _ _ _ h => Or.inl h
theorem CF.dirty : FDirty ro (CF ro) := fun _ _ h => Or.inr h

theorem CReady.next (hro : RoOk ro) (h : CReady ro t hd σ0 w) (hi : GInv ro w') (hc : Content ro w') (hk : ∀ p i, hd = some (p, i) → KeepB ro w w' p) :
    CReady ro t hd σ0 w' := by
  refine ⟨hi, hc, fun p i e => ?_⟩
  obtain ⟨m, s, hu⟩ := h.hand p i e
  have k := hk p i e
  obtain ⟨u0, hu0, _⟩ := s.usable h.inv
  refine ⟨m.keep hro h.inv hi k, s.keep k, fun u => ⟨(hu u).1.trans ⟨k.usable, fun h' => ?_⟩, fun hh x hx => ?_⟩⟩
  · have := (k.usable hu0).uniq hro hi h'
    subst this; exact hu0
  · rw [← (hu u).2 hh x hx]
    exact (k.user (((hu u).1.mp hh).user m hx)).2

theorem CReady.rely (hro : RoOk ro) (h : CReady ro t hd σ0 w) (r : Rely .conc ro t w w') : CReady ro t hd σ0 w' :=
  h.next hro (r.inv h.inv) (r.content h.inv h.content) fun p i e => r.keep h.inv (h.hand p i e).1.blk

theorem CReady.idle (hro : RoOk ro) (h : CReady ro t hd σ0 w) (i : Idle .conc ro t w w') : CReady ro t hd σ0 w' :=
  h.next hro i.inv (i.content h.content) fun p j e => i.keep p (fun h => h.elim) (h.hand p j e).1.blk

/-- A block has been freed. -/
theorem CReady.left (hro : RoOk ro) (hr : CReady ro t hd σ0 w) {c : Call} {r : Ret} {p : Nat} {i : Info} {o1 o2 : Option Nat} (e : hd = some (p, i))
    (h1 : ∀ q, c.gone r q → q = p) (h2 : ∀ q, c.drops q → q = p) (F : Freed .conc ro t p o1 o2 w w') (hn0 : n0 ≤ w.G.pushes) :
    Left ro t c hd σ0 n0 r w' := by
  refine ⟨fun q _ hq => ?_, fun q j hq _ hs h3 u hu h4 y h5 h6 => ?_⟩
  · rw [h1 q hq]
    rcases F with ⟨_, F⟩ | ⟨_, F⟩
    · exact F.blk
    · exact F.blk
  · have := h2 q hq
    subst this
    rcases F with ⟨k, _⟩ | ⟨_, F⟩
    · rw [hs] at k; cases k
    obtain ⟨size, guard, q1, _, _, q2, _⟩ := F.has
    have eu : u = size := by
      rcases ((hr.hand q i e).2.2 u).1.mp hu with ⟨a', c', i', k', k1, _⟩ | ⟨gd, k1⟩
      · rw [k1.inSlab hro hr.inv] at hs; cases hs
      · have := hr.inv.has_unique k1 q1 rfl
        simp only [RegionMeta.mk.injEq] at this
        exact this.2.1
    subst eu
    have ok := hr.inv.reg _ q1
    have g1 := ok.gpos
    have g2 := ok.lo
    simp only at g1 g2
    have := q2 h3 h4 (y / PAGE) (inPages_of_inRange (by unfold inRange; omega))
    omega

/-- Nothing is given out. -/
theorem Done.none {c : Call} {r : Ret} (h1 : c.gives hd r = none) (h2 : ∀ n k, c = .calloc n k → r.block = none) (h3 : ∀ p n, c ≠ .realloc p n)
    (h4 : ∀ p, c ≠ .usableSize p) (h5 : ∀ x, c ≠ .objectSize x)
    (h7 : Left ro t c hd σ0 n0 r w := by exact ⟨fun _ _ h => False.elim h, fun _ _ h => False.elim h⟩) : Done ro t c hd σ0 n0 r w where
  left := h7
  gives := fun q i e => by rw [h1] at e; cases e
  zero := fun n k e q hq => by rw [h2 n k e] at hq; cases hq
  moved := fun p n e => absurd e (h3 p n)
  rest := fun p n e => absurd e (h3 p n)
  kept := fun p n e => absurd e (h3 p n)
  usable := fun p e => absurd e (h4 p)
  object := fun x e => absurd e (h5 x)
  fresh := fun i hr _ q hq => by
    cases c <;> first
      | (cases hr; done)
      | (unfold Call.gives at h1; simp only [hr, hq] at h1; cases h1)

/-- A new block is given out. -/
theorem Done.new {c : Call} {r : Ret} {q : Nat} {i : Info} (h1 : c.gives hd r = some (q, i)) (hm : Mine t q w) (hs : Sized ro w q i) (hr : r.block = some q)
    (h2 : ∀ n k, c = .calloc n k → ∀ x, inRange q (n * k) x → w.σ.vm.mem x = 0#8) (h3 : ∀ p n, c ≠ .realloc p n)
    (h4 : ∀ p, c ≠ .usableSize p) (h5 : ∀ x, c ≠ .objectSize x)
    (h6 : (∀ n k, c ≠ .calloc n k) → ZeroFor ro i → ∀ u, UsableIs ro w q u → ∀ x, q ≤ x → x < q + u → w.σ.vm.mem x = 0#8)
    (h7 : Left ro t c hd σ0 n0 r w := by exact ⟨fun _ _ h => False.elim h, fun _ _ h => False.elim h⟩) : Done ro t c hd σ0 n0 r w where
  left := h7
  gives := fun q' i' e => by rw [h1] at e; cases e; exact ⟨hm, hs⟩
  zero := fun n k e q' hq => by rw [hr] at hq; cases hq; exact h2 n k e
  moved := fun p n e => absurd e (h3 p n)
  rest := fun p n e => absurd e (h3 p n)
  kept := fun p n e => absurd e (h3 p n)
  usable := fun p e => absurd e (h4 p)
  object := fun x e => absurd e (h5 x)
  fresh := fun i' hr' hc q' hq => by
    rw [hr] at hq; cases hq
    have : i' = i := by
      cases c <;> first
        | (cases hr'; done)
        | (unfold Call.gives at h1; simp only [hr', hr] at h1; cases h1; rfl)
    subst this
    exact h6 hc

/-- When the contents of freed memory are in order. -/
theorem ZeroFor.content {i : Info} (h : ZeroFor ro i) (hc : Content ro w) :
    ro.g.maxSlab < adjustSizeForCanary ro.g i.size ∨ ro.g.writeAfterFreeCheck = true ∨ Tagged ro w ∨ (ro.g.zeroOnFree = true ∧ Content ro w) := by
  rcases h with h | h | h
  · exact Or.inl (adjust_big h)
  · exact Or.inr (Or.inl h)
  · exact Or.inr (Or.inr (Or.inr ⟨h, hc⟩))

theorem AlSimple.done (hro : RoOk ro) (hcw : Content ro w) {a al n : Nat} {o : Option Nat} {tl' : Tl} {c : Call} (hn : n < W64) (hc : c.request = some ⟨n, some al⟩)
    (hg : ∀ r, c.gives hd r = match c.request, r.block with
      | some i, some q => some (q, i)
      | _, _ => none)
    (h2 : ∀ n k, c ≠ .calloc n k) (h3 : ∀ p n, c ≠ .realloc p n) (h4 : ∀ p, c ≠ .usableSize p) (h5 : ∀ x, c ≠ .objectSize x)
    (h : AlSimple .conc ro t a al (adjustSizeForCanary ro.g n) w o tl' w') : tl'.unsealed = false ∧ Done ro t c hd σ0 n0 (retPtr o) w' := by
  obtain ⟨h0, h⟩ := h
  refine ⟨h0, ?_⟩
  have hleft : Left ro t c hd σ0 n0 (retPtr o) w' := by
    cases c <;> first | cases hc; done | exact ⟨fun _ _ h => False.elim h, fun _ _ h => False.elim h⟩
  cases o with
  | none =>
    refine Done.none ?_ (fun n k e => absurd e (h2 n k)) h3 h4 h5 hleft
    rw [hg, hc]; rfl
  | some p =>
    obtain ⟨k1, k2⟩ := h
    obtain ⟨m1, _, m3⟩ := k2.blk hro
    have hb := retPtr_block hro m3.inv m1
    refine Done.new ?_ m1 (k2.sized hro hn k1) hb (fun n k e => absurd e (h2 n k)) h3 h4 h5
      (fun _ hz u hu x q1 q2 => k2.zero_usable hro hu (hz.content hcw) q1 q2) hleft
    rw [hg, hc, hb]

/-! #### Arguments -/

theorem CReady.ffree (h : CReady ro t hd σ0 w) {p : Nat} {i : Info} (e : hd = some (p, i)) {F : Bad → Choice → World → Prop} : FFree ro t p none none w F :=
  ⟨fun k => by rw [(h.hand p i e).1.blk] at k; exact absurd k (by simp), fun _ k => (h.content.canary_ok h.inv k).elim,
   fun _ _ _ _ _ _ e => absurd e (by simp), fun _ _ _ _ e => absurd e (by simp)⟩

theorem sized_freeSized (hro : RoOk ro) (hi : GInv ro w) {p n : Nat} (h : Sized ro w p ⟨n, none⟩) :
    ¬ ((∃ a c i k, IsSmall ro w.σ p a c i k ∧ (getSizeInfo (adjustSizeForCanary ro.g n)).size ≠ ro.g.classSize c) ∨
      (∃ s g, w.σ.rt.Has ⟨p, s, g⟩ ∧ s ≠ getLargeSizeClass ro.g (adjustSizeForCanary ro.g n))) := by
  have h1 := h.2
  simp only at h1
  rintro (⟨a, c, i, k, h2, h3⟩ | ⟨s, gd, h2, h3⟩) <;> rcases h1 with ⟨h4, a', i', k', h5⟩ | ⟨h4, g', h5⟩
  · obtain ⟨_, rfl, _⟩ := h2.uniq hro hi h5
    rw [classSize_clsOf h4] at h3; exact h3 rfl
  · exact not_small_has hro hi h2 h5
  · exact not_small_has hro hi h5 h2
  · have := hi.has_unique h2 h5 rfl
    injection this with _ e
    exact h3 e

theorem sized_realloc (hro : RoOk ro) (hi : GInv ro w) {p : Nat} {i : Info} (hs : Sized ro w p i)
    (ho : ¬ OverAligned ro.g i) {s gd : Nat} (h1 : w.σ.rt.Has ⟨p, s, gd⟩) : ro.g.maxSlab < s := by
  obtain ⟨h0, h2⟩ := hs
  have key : ∀ s', s' < W64 → SizeKind ro w p s' → ro.g.maxSlab < s := by
    rintro s' hs (⟨_, a, j, k, h3⟩ | ⟨h3, g', h4⟩)
    · exact (not_small_has hro hi h3 h1).elim
    · have := hi.has_unique h1 h4 rfl
      injection this with _ e
      have h5 := (hi.reg _ h1).size
      have := (getLargeSizeClass_ok ro.g hs (by simp only at h5; omega)).1
      omega
  cases e : i.align with
  | none => rw [e] at h2; exact key _ (adjust_lt h0) h2
  | some al =>
    rw [e] at h2
    obtain ⟨_, _, ⟨s', _, h3, _, _, h4⟩ | ⟨h3, h4, _⟩⟩ := h2
    · exact key _ h3 h4
    · refine absurd ⟨⟨al, e, h3⟩, ?_⟩ ho
      have := canarySize_le ro.g
      unfold adjustSizeForCanary at h4
      rcases maxSlab_cases ro.g with ⟨_, e⟩ | ⟨_, e⟩ <;> split at h4 <;> omega

/-- `malloc_object_size` of a pointer into a block of the caller. -/
theorem hObjectSize_conc {m : Mode} {F : Bad → Choice → World → Prop} {b u x : Nat} {tl : Tl} (hro : RoOk ro) (hi : GInv ro w) (hm : Mine t b w) (hu : UsableIs ro w b u) (h1 : b ≤ x) (h2 : x < b + u) :
    WP m ro t F (hObjectSize ro x) (fun n tl' w' => tl'.unsealed = false ∧ Rely m ro t w w' ∧ tl'.errno = tl.errno ∧ ObjectSizeIs ro b u x n) tl w := by
  have hb0 := mine_ne_zero hro hi hm
  have h0 : x ≠ 0 := by omega
  unfold hObjectSize ObjectSizeIs
  rw [if_neg h0]
  have key : ∀ w1, Rely m ro t w w1 → GInv ro w1 ∧ UsableIs ro w1 b u ∧ Mine t b w1 := fun w1 r =>
    ⟨r.inv hi, (r.keep hi hm.blk).usable hu, hm.keep hro hi (r.inv hi) (r.keep hi hm.blk)⟩
  cases hs : ro.inSlab x with
  | true =>
    rw [if_pos rfl]
    refine WP.andThen (WP.unseal hi fun w1 r1 => ?_)
    obtain ⟨hi1, hu1, hm1⟩ := key w1 r1
    -- the block is a small one, not of the zero class
    have small : ∃ a c i k, IsSmall ro w1.σ b a c i k ∧ inRange b (ro.g.slotSize c) x ∧ c ≠ 0 ∧ (ro.sizeClassOf x).2 = c ∧ u = ro.g.usable c := by
      rcases hu1 with ⟨a, c, i, k, k1, k2⟩ | ⟨gd, k1⟩
      · have hle := (usable_le ro c).resolve_right (not_not.mpr k1.2.1)
        have hz : ro.g.classSize c ≠ 0 := by intro e; rw [if_pos e] at k2; omega
        rw [← k2] at hle
        have hin : inRange b (ro.g.slotSize c) x := by unfold inRange; omega
        obtain ⟨q1, q2, _⟩ := k1.lt hi1
        have hin2 := hin
        rw [k1.2.2.1] at hin2
        refine ⟨a, c, i, k, k1, hin, fun e => hz ((classGeo ro.g k1.2.1).zero_iff.mp e), ?_, by rw [k2, if_neg hz]⟩
        rw [hro.sizeClassOf k1.1 k1.2.1 (hro.region_cell k1.1 k1.2.1 (slot_in_region hro k1.1 k1.2.1 q1 q2 hin2))]
      · exfalso
        have : UserByte ro w1 b x := UsableIs.user hm1 (Or.inr ⟨gd, k1⟩) (by unfold inRange; omega)
        rw [inSlab_iff hro hi1] at hs
        have e1 := hi1.reg_body k1 (pg := x / PAGE) (by
          refine inPages_of_pageUp (hi1.reg _ k1).pmod ?_
          rw [show w1.G.effSize ⟨b, u, gd⟩ = u by unfold Gh.effSize; rw [show w1.G.eff b = none from hm1.eff]; rfl]
          have := pageUp_le_iff (n := u)
          unfold inRange; simp only; omega)
        rw [hs] at e1; cases e1
    obtain ⟨a, c, i, k, k1, k2, k3, k4, k5⟩ := small
    refine WP.andThen ((smallOffset_wp hro hi1 (fun _ => rfl) hs (fun msg ch h => (h _ _ _ _ _ k1 k2).elim) (fun e => absurd (k4.symm.trans e) k3)).mono fun n tl2 w2 => ?_)
    rintro ⟨rfl, r2, h⟩
    refine WP.andThen (WP.sealM (r2.inv hi1) fun w3 r3 => WP.pure ⟨rfl, (r1.comp r2).comp r3, rfl, ?_⟩)
    rw [if_pos rfl]
    obtain ⟨q, a', c', i', k', j1, rfl, j2, j3⟩ := h (by rw [k4]; exact k3)
    obtain ⟨rfl, _⟩ := k1.disjoint hro hi1 j1 k2 j2
    have G := classGeo ro.g k1.2.1
    have hne : ro.g.classSize c ≠ 0 := fun e => k3 (G.zero_iff.mpr e)
    have hss : ro.g.slotSize c = ro.g.classSize c := by unfold Cfg.slotSize; rw [if_neg hne]
    have h16 := G.size_ge; have := G.size_le; have := canarySize_le ro.g
    unfold Ro.slabUsableSize
    rw [k4, if_neg hne, j3, k5]
    have hux : x - b ≤ ro.g.usable c := by omega
    have huc : ro.g.usable c = ro.g.classSize c - ro.g.canarySize := by unfold Cfg.usable; rw [hss]
    rw [sub64_of_le (a := ro.g.classSize c) (by omega) (by omega), ← huc, sub64_of_le (by omega) hux]
    omega
  | false =>
    rw [if_neg (by simp)]
    refine WP.andThen (WP.unseal hi fun w1 r1 => ?_)
    obtain ⟨hi1, hu1, hm1⟩ := key w1 r1
    refine WP.andThen ((largeObjectSize_wp hi1 (fun _ => rfl)).mono fun n tl2 w2 => ?_)
    rintro ⟨rfl, r2, h⟩
    refine WP.andThen (WP.sealM (r2.inv hi1) fun w3 r3 => WP.pure ⟨rfl, (r1.comp r2).comp r3, rfl, ?_⟩)
    rw [if_neg (by simp)]
    have hreg : ∃ gd, w1.σ.rt.Has ⟨b, u, gd⟩ := by
      rcases hu1 with ⟨a, c, i, k, k1, k2⟩ | k1
      · exfalso
        have hle := (usable_le ro c).resolve_right (not_not.mpr k1.2.1)
        rw [← k2] at hle
        have e := k1.own hro hi1 (x := x) (by unfold inRange; omega)
        rw [← inSlab_iff hro hi1, hs] at e; cases e
      · exact k1
    obtain ⟨gd, hreg⟩ := hreg
    by_cases hx : x = b
    · rw [if_pos hx]
      subst hx
      rcases h with ⟨g', h⟩ | ⟨_, h⟩
      · have := hi1.has_unique h hreg rfl
        injection this
      · exact absurd hreg (h _ _)
    · rw [if_neg hx]
      rcases h with ⟨g', h⟩ | ⟨h, _⟩
      · exfalso
        have e1 : w1.G.own (x / PAGE) = .reg b := hi1.reg_body hreg (by
          refine inPages_of_pageUp (hi1.reg _ hreg).pmod ?_
          rw [show w1.G.effSize ⟨b, u, gd⟩ = u by unfold Gh.effSize; rw [show w1.G.eff b = none from hm1.eff]; rfl]
          have := pageUp_le_iff (n := u)
          unfold inRange; simp only; omega)
        have e2 : w1.G.own (x / PAGE) = .reg x := by
          refine (hi1.regOwn _ x).mpr ⟨_, h, rfl, ?_⟩
          have R := hi1.reg _ h
          have h3 := R.pmod
          have h4 := R.gmod
          have h5 := R.gpos
          have h6 := R.lo
          simp only at h3 h4 h5 h6 ⊢
          generalize pageUp _ = U
          unfold inPages
          omega
        rw [e1] at e2; injection e2 with e2; omega
      · exact h

/-- What each call does while other threads make calls. -/
theorem conc_wp {a : Nat} {c : Call} {tl : Tl} (hro : RoOk ro) (hr : CReady ro t hd σ0 w) (htl : tl.unsealed = false)
    (ha : a < ro.g.nArena) (hok : c.Ok) (harg : ArgOk ro hd σ0 c) (hn0 : n0 ≤ w.G.pushes) :
    WP .conc ro t (CF ro) (c.prog ro a) (fun r tl' w' => tl'.unsealed = false ∧ Done ro t c hd σ0 n0 r w') tl w := by
  have hi := hr.inv
  have hS := CF.sys (ro := ro)
  have hD := CF.dirty (ro := ro)
  cases c with
  | malloc n =>
    refine WP.andThen ((hMalloc_wp hro hS hD hi ha hok).mono fun r tl1 w1 => ?_)
    rintro ⟨h1, h2⟩
    refine WP.pure ⟨h1, ?_⟩
    cases r with
    | none => exact Done.none rfl (fun _ _ e => by cases e) (fun _ _ e => by cases e) (fun _ e => by cases e) (fun _ e => by cases e)
    | some p =>
      have nb := Got.newBlk hro (adjust_lt hok) h2
      have hb := retPtr_block hro nb.at_.inv nb.mine
      exact Done.new (by unfold Call.gives; simp only [hb, Call.request]) nb.mine (i := ⟨n, none⟩) ⟨hok, Got.kind h2⟩ hb
        (fun _ _ e => by cases e) (fun _ _ e => by cases e) (fun _ e => by cases e) (fun _ e => by cases e)
        (fun _ hz u hu x q1 q2 => Got.zero_usable hro h2 hu (hz.content hr.content) q1 q2)
  | calloc n k =>
    refine WP.andThen ((hCalloc_wp hro hS hD hi ha).mono fun r tl1 w1 => ?_)
    rintro ⟨h1, h2⟩
    refine WP.pure ⟨h1.elim (fun h => h.2.trans htl) id, ?_⟩
    cases r with
    | none => exact Done.none rfl (fun _ _ _ => rfl) (fun _ _ e => by cases e) (fun _ e => by cases e) (fun _ e => by cases e)
    | some p =>
      have nb := h2.2.got
      have hb := retPtr_block hro nb.at_.inv nb.mine
      exact Done.new (by unfold Call.gives; simp only [hb, Call.request]) nb.mine (h2.2.sized h2.1) hb
        (fun _ _ e => by cases e; exact h2.2.zero fun _ => Or.inr (Or.inr hr.content)) (fun _ _ e => by cases e) (fun _ e => by cases e) (fun _ e => by cases e)
        (fun h => absurd rfl (h n k))
  | realloc p n =>
    have harg : (p = 0 ∧ hd = none) ∨ ∃ i, hd = some (p, i) ∧ ¬ OverAligned ro.g i := harg
    have hmine : p ≠ 0 → ∃ i, hd = some (p, i) ∧ ¬ OverAligned ro.g i := fun h0 => harg.resolve_left fun h => h0 h.1
    refine WP.andThen ((hRealloc_wp hro hS hD hi htl ha hok.2 (fun h0 => ?_) (fun h0 => ?_) (fun h0 h => ?_) (fun s g hm h2 h3 => ?_)).mono fun r tl1 w1 => ?_)
    · obtain ⟨i, e, _⟩ := hmine h0
      exact Or.inl (hr.hand p i e).1
    · obtain ⟨i, e, _⟩ := hmine h0
      exact hr.ffree e
    · obtain ⟨i, e, _⟩ := hmine h0
      rw [(hr.hand p i e).1.blk] at h; exact absurd h (by simp)
    · obtain ⟨i, e, ho⟩ := hmine (mine_ne_zero hro hi hm)
      have := sized_realloc hro hi (hr.hand p i e).2.1 ho h2
      omega
    rintro ⟨h1, h2⟩
    refine WP.pure ⟨h1, ?_⟩
    cases r with
    | none =>
      have hr1 := hr.idle hro h2.1
      refine ⟨fun q i e => ?_, fun _ _ e => (by cases e), fun _ _ _ _ q e => (by cases e), fun p' n' e _ u hu x hx => ?_, fun _ e => (by cases e), fun _ e => (by cases e), fun _ e => (by cases e), fun _ _ _ _ e => (by cases e), ⟨fun _ _ h => absurd h.2.choose_spec.1 (fun e => by cases e), fun _ _ h => False.elim h⟩⟩
      · obtain ⟨k1, k2, _⟩ := hr1.hand q i e
        exact ⟨k1, k2⟩
      · cases e
        rcases harg with ⟨rfl, _⟩ | ⟨i, e, _⟩
        · obtain ⟨_, hu⟩ := hu
          unfold hUsableSize at hu
          rw [if_pos rfl] at hu
          cases hu
          unfold inRange at hx; omega
        · exact ((hr1.hand p i e).2.2 u).2 hu x hx
    | some q =>
      have hz0 := fun (hz : ZeroFor ro ⟨n, none⟩) {v x} => ReallocPost.zero hro hok.2 h2 (hz.content hr.content) (v := v) (x := x)
      rcases h2 with ⟨rfl, h⟩ | ⟨h0, size, hsz, hpay, h⟩
      · have nb := Got.newBlk hro (adjust_lt hok.2) h
        have hb := retPtr_block hro nb.at_.inv nb.mine
        have hd0 : hd = none := by
          rcases harg with ⟨_, h⟩ | ⟨i, e, _⟩
          · exact h
          · exact absurd rfl (mine_ne_zero hro hi (hr.hand 0 i e).1)
        refine ⟨fun q' i' e => ?_, fun _ _ e => (by cases e), fun _ _ e h => by cases e; exact absurd rfl h, fun _ _ _ e => absurd (hb.symm.trans e) (by simp), fun _ e => (by cases e), fun _ e => (by cases e), fun _ e => (by cases e), fun p' n' e' q' hq hz v hv x hx hk => ?_, ⟨fun _ h0 h => absurd h.1.symm h0, fun _ _ h => False.elim h⟩⟩
        rotate_left
        · rw [hb] at hq; cases hq; cases e'
          exact hz0 hz hv hx (Or.inl rfl)
        unfold Call.gives at e
        simp only [hb, hd0] at e
        cases e
        exact ⟨nb.mine, hok.2, Got.kind h⟩
      · obtain ⟨i, e, ho⟩ := hmine h0
        obtain ⟨m, s, hu⟩ := hr.hand p i e
        rcases h with h | ⟨hn, _⟩
        · have hb := retPtr_block hro h.at_.inv h.mine
          refine ⟨fun q' i' e' => ?_, fun _ _ e => (by cases e), fun p' n' e' _ q' hq u hu' x hx hxu => ?_, fun _ _ _ e => absurd (hb.symm.trans e) (by simp), fun _ e => (by cases e), fun _ e => (by cases e), fun _ e => (by cases e), fun p' n' e' q' hq hz v hv x hx hk => ?_, ⟨fun _ _ hg k => ?_, fun _ _ h => False.elim h⟩⟩
          · unfold Call.gives at e'
            simp only [hb, e] at e'
            cases e'
            exact ⟨h.mine, h.sized hro hi hok.2 hsz s⟩
          · cases e'
            rw [hb] at hq; cases hq
            rw [h.same u ((hu u).1.mp hu') x (by omega) hxu]
            exact (hu u).2 hu' (p + x) (by unfold inRange; omega)
          · rw [hb] at hq; cases hq; cases e'
            obtain ⟨u, hu', hk⟩ := (hk.resolve_left h0).2
            exact hz0 hz hv hx (Or.inr ⟨u, m, (hu u).1.mp hu', hk⟩)
          · obtain ⟨rfl, y, hy, hne⟩ := hg
            rw [hb] at hy; cases hy
            exact (h.moved hne).2 k
        · rw [m.blk] at hn; exact absurd hn (by simp)
  | posixMemalign al n =>
    refine WP.andThen ((allocAligned_wp hro hS hD hi ha hok.2 hok.1 (by decide)).mono fun r tl1 w1 => ?_)
    rintro ⟨h1, h2⟩
    refine WP.pure ⟨h1, ?_⟩
    cases r with
    | error e => exact Done.none rfl (fun _ _ e => by cases e) (fun _ _ e => by cases e) (fun _ e => by cases e) (fun _ e => by cases e)
    | ok p =>
      obtain ⟨k1, _, k3⟩ := h2
      obtain ⟨m1, _, m3⟩ := k3.blk hro
      exact Done.new rfl m1 (k3.sized hro hok.2 k1) rfl
        (fun _ _ e => by cases e) (fun _ _ e => by cases e) (fun _ e => by cases e) (fun _ e => by cases e)
        (fun _ hz u hu x q1 q2 => k3.zero_usable hro hu (hz.content hr.content) q1 q2)
  | alignedAlloc al n =>
    refine WP.andThen ((allocAlignedSimple_wp hro hS hD hi ha hok.2 hok.1).mono fun r tl1 w1 => ?_)
    exact fun h1 => WP.pure (AlSimple.done hro hr.content hok.2 rfl (fun _ => rfl) (fun _ _ e => by cases e) (fun _ _ e => by cases e) (fun _ e => by cases e) (fun _ e => by cases e) h1)
  | valloc n =>
    refine WP.andThen ((allocAlignedSimple_wp hro hS hD hi ha hok (by decide)).mono fun r tl1 w1 => ?_)
    exact fun h1 => WP.pure (AlSimple.done hro hr.content hok rfl (fun _ => rfl) (fun _ _ e => by cases e) (fun _ _ e => by cases e) (fun _ e => by cases e) (fun _ e => by cases e) h1)
  | pvalloc n =>
    refine WP.andThen ((hPvalloc_wp hro hS hD hi ha).mono fun r tl1 w1 => ?_)
    rintro (⟨h1, rfl, h3, h4, h5⟩ | ⟨h1, h2⟩)
    · exact WP.pure ⟨h4.trans htl, Done.none rfl (fun _ _ e => by cases e) (fun _ _ e => by cases e) (fun _ e => by cases e) (fun _ e => by cases e)⟩
    · have e : (n + 4095) / 4096 * 4096 = pageAlign n := by
        have hn : n < W64 := hok
        rw [pageAlign_eq] at *
        omega
      refine WP.pure (AlSimple.done hro hr.content (n := pageAlign n) (by rw [pageAlign_eq]; omega) ?_ (fun _ => rfl) (fun _ _ e => by cases e) (fun _ _ e => by cases e) (fun _ e => by cases e) (fun _ e => by cases e) h2)
      show some (⟨(n + 4095) / 4096 * 4096, some 4096⟩ : Info) = _
      rw [e]
  | free p =>
    have dn : ∀ w1, Left ro t (.free p) hd σ0 n0 .unit w1 → Done ro t (.free p) hd σ0 n0 .unit w1 := fun w1 hl =>
      Done.none rfl (fun _ _ e => by cases e) (fun _ _ e => by cases e) (fun _ e => by cases e) (fun _ e => by cases e) hl
    rcases harg with ⟨rfl, e⟩ | ⟨i, e⟩
    · exact WP.pure ⟨htl, dn w ⟨fun q h0 h => absurd h.symm h0, fun _ _ _ h => by rw [e] at h; cases h⟩⟩
    · refine WP.andThen ((hFree_wp hro hS hi (fun _ => Or.inl (hr.hand p i e).1) (hr.ffree e)).mono fun r tl1 w1 => ?_)
      rintro (⟨h0, _, _⟩ | ⟨_, h2, _, F⟩)
      · exact absurd h0 (mine_ne_zero hro hi (hr.hand p i e).1)
      · exact WP.pure ⟨h2, dn _ (hr.left hro e (fun _ h => h.symm) (fun _ h => h.symm) F hn0)⟩
  | freeSized p n =>
    have dn : ∀ w1, Left ro t (.freeSized p n) hd σ0 n0 .unit w1 → Done ro t (.freeSized p n) hd σ0 n0 .unit w1 := fun w1 hl =>
      Done.none rfl (fun _ _ e => by cases e) (fun _ _ e => by cases e) (fun _ e => by cases e) (fun _ e => by cases e) hl
    rcases harg with ⟨rfl, e⟩ | e
    · exact WP.pure ⟨htl, dn w ⟨fun q h0 h => absurd h.symm h0, fun _ _ _ h => by rw [e] at h; cases h⟩⟩
    · obtain ⟨m, s, _⟩ := hr.hand p _ e
      have hg := sized_freeSized hro hi s
      rw [not_or] at hg
      have hf := hr.ffree e (F := CF ro)
      refine WP.andThen ((hFreeSized_wp hro hS hi (fun _ => Or.inl m) ⟨hf.nobody, hf.canary, fun a c i k n' _ e h1 h2 => ?_, fun s' g' n' _ e h1 h2 => ?_⟩).mono fun r tl1 w1 => ?_)
      · cases e; exact absurd ⟨a, c, i, k, h1, h2⟩ hg.1
      · cases e; exact absurd ⟨s', g', h1, h2⟩ hg.2
      · rintro (⟨h0, _, _⟩ | ⟨_, h2, F⟩)
        · exact absurd h0 (mine_ne_zero hro hi m)
        · exact WP.pure ⟨h2, dn _ (hr.left hro e (fun _ h => h.symm) (fun _ h => h.symm) F hn0)⟩
  | usableSize p =>
    rcases harg with ⟨rfl, e⟩ | ⟨i, e⟩
    · refine WP.pure ⟨htl, fun q i h => ?_, fun _ _ e => (by cases e), fun _ _ e => (by cases e), fun _ _ e => (by cases e), fun p h => ?_, fun _ e => (by cases e), fun _ e => (by cases e), fun _ _ e => (by cases e), ⟨fun _ _ h => False.elim h, fun _ _ h => False.elim h⟩⟩
      · rw [show Call.gives hd (.num 0) (.usableSize 0) = hd from rfl, e] at h; cases h
      · cases h; exact ⟨0, rfl, fun _ => rfl, fun h => absurd rfl h, fun x hx => by unfold inRange at hx; omega⟩
    · obtain ⟨m, s, hu⟩ := hr.hand p i e
      have h0 := mine_ne_zero hro hi m
      refine WP.andThen ((hUsableSize_wp hro hi (fun _ => Or.inl m) (hr.ffree e)).mono fun r tl1 w1 => ?_)
      rintro ⟨_, h2, _, ⟨h4, _⟩ | ⟨_, h5, _, h7, _⟩⟩
      · exact absurd h4 h0
      · have hr1 := hr.idle hro h2
        refine WP.pure ⟨h5, fun q i h => ?_, fun _ _ e => (by cases e), fun _ _ e => (by cases e), fun _ _ e => (by cases e), fun p' h => ?_, fun _ e => (by cases e), fun _ e => (by cases e), fun _ _ e => (by cases e), ⟨fun _ _ h => False.elim h, fun _ _ h => False.elim h⟩⟩
        · exact ⟨(hr1.hand q i h).1, (hr1.hand q i h).2.1⟩
        · cases h
          have hU : Usable ro σ0 p r := (hu r).1.mpr h7
          exact ⟨r, rfl, fun h => absurd h h0, fun _ => hU, ((hr1.hand p i e).2.2 r).2 hU⟩
  | objectSize x =>
    rcases harg with ⟨rfl, e⟩ | ⟨b, i, u, e, h1, h2, h3⟩
    · refine WP.pure ⟨htl, fun q i h => ?_, fun _ _ e => (by cases e), fun _ _ e => (by cases e), fun _ _ e => (by cases e), fun _ e => (by cases e), fun p h => ?_, fun _ e => (by cases e), fun _ _ e => (by cases e), ⟨fun _ _ h => False.elim h, fun _ _ h => False.elim h⟩⟩
      · rw [show Call.gives hd (.num 0) (.objectSize 0) = hd from rfl, e] at h; cases h
      · cases h; exact ⟨0, rfl, fun _ => rfl, fun b i h => by rw [e] at h; cases h⟩
    · obtain ⟨m, s, hu⟩ := hr.hand b i e
      have h0 := mine_ne_zero hro hi m
      refine WP.andThen ((hObjectSize_conc hro hi m ((hu u).1.mp h1) h2 h3).mono fun r tl1 w1 => ?_)
      rintro ⟨k1, k2, _, k3⟩
      have hr1 := hr.rely hro k2
      refine WP.pure ⟨k1, fun q i h => ?_, fun _ _ e => (by cases e), fun _ _ e => (by cases e), fun _ _ e => (by cases e), fun _ e => (by cases e), fun x' h => ?_, fun _ e => (by cases e), fun _ _ e => (by cases e), ⟨fun _ _ h => False.elim h, fun _ _ h => False.elim h⟩⟩
      · exact ⟨(hr1.hand q i h).1, (hr1.hand q i h).2.1⟩
      · cases h
        refine ⟨r, rfl, fun h => by omega, fun b' i' e' u' hu' => ?_⟩
        rw [e] at e'; cases e'
        have := ((hu u).1.mp h1).uniq hro hi ((hu u').1.mp hu')
        subst this
        exact ⟨k3, ((hr1.hand b i e).2.2 u).2 hu'⟩
  | objectSizeFast p =>
    have dn : ∀ v, Done ro t (.objectSizeFast p) hd σ0 n0 (.num v) w := fun v =>
      Done.none rfl (fun _ _ e => by cases e) (fun _ _ e => by cases e) (fun _ e => by cases e) (fun _ e => by cases e)
    show WP .conc ro t _ (hObjectSizeFast ro p >>= fun r => pure (Ret.num r)) _ tl w
    unfold hObjectSizeFast
    by_cases h0 : p = 0
    · rw [if_pos h0]; exact WP.pure ⟨htl, dn _⟩
    · rw [if_neg h0]
      by_cases h1 : ro.inSlab p = true
      · rw [if_pos h1]; exact WP.pure ⟨htl, dn _⟩
      · rw [if_neg h1]; exact WP.pure ⟨htl, dn _⟩
  | trim =>
    refine WP.andThen ((hTrim_wp hro hS hi).mono fun r tl1 w1 => ?_)
    rintro ⟨h1, h2, h3⟩
    exact WP.pure ⟨h1, Done.none rfl (fun _ _ e => by cases e) (fun _ _ e => by cases e) (fun _ e => by cases e) (fun _ e => by cases e)⟩
  | mallinfo =>
    refine WP.andThen ((hMallinfo_wp (m := .conc) hi (fun e => by cases e)).mono fun r tl1 w1 => ?_)
    rintro ⟨h1, h2, h3, h4, h5⟩
    refine WP.pure ⟨?_, Done.none rfl (fun _ _ e => by cases e) (fun _ _ e => by cases e) (fun _ e => by cases e) (fun _ e => by cases e)⟩
    cases hs : ro.g.stats with
    | true => exact h3 hs
    | false => rw [h4 hs]; exact htl

end
end HM
