import Verif.Props.WriteAfterFree
import Verif.Props.Fail
import Verif.Props.ThreadsQuarantine
/-
C61: errno, and the refusal of invalid arguments, while the calls of several threads are interleaved, whatever the application writes (Wild.lean).
-/
namespace HM

variable {g : Cfg} {ro : Ro} {ar : Nat → Nat} {calm : Bool} {h : List CEv} {s : CSys}

/-! ### Programs -/

/-- Whatever the states in which its actions are performed, as long as none of them satisfies `B`: the program, begun with this errno, returns only what satisfies `Q`, together
with the errno at that time. -/
def Prog.Leads (B : St → Prop) {α : Type} (Q : α → Errno → Prop) : Prog α → Errno → Prop
  | .ret a, e => Q a e
  | .act f k, e => ∀ ch σ tl σ' tl' b, tl.errno = e → ¬ B σ → f ch σ tl = .ok (σ', tl', b) → (k b).Leads B Q tl'.errno

variable {B : St → Prop}

theorem Prog.Leads.bind {α β : Type} {Q : α → Errno → Prop} {R : β → Errno → Prop} {P : Prog α} {K : α → Prog β} {e : Errno} (h : P.Leads B Q e)
    (hk : ∀ a e, Q a e → (K a).Leads B R e) : (P.bind K).Leads B R e := by
  induction P generalizing e with
  | ret a => exact hk a e h
  | act f k ih => exact fun ch σ tl σ' tl' b h1 h2 h3 => ih b (h ch σ tl σ' tl' b h1 h2 h3)

theorem Prog.Leads.mono {α : Type} {Q R : α → Errno → Prop} {P : Prog α} {e : Errno} (h : P.Leads B Q e) (hk : ∀ a e, Q a e → R a e) : P.Leads B R e := by
  induction P generalizing e with
  | ret a => exact hk a e h
  | act f k ih => exact fun ch σ tl σ' tl' b h1 h2 h3 => ih b (h ch σ tl σ' tl' b h1 h2 h3)

theorem Prog.Leads.any {α : Type} (P : Prog α) (e : Errno) : P.Leads B (fun _ _ => True) e := by
  induction P generalizing e with
  | ret => trivial
  | act f k ih => exact fun ch σ tl σ' tl' b _ _ _ => ih b _

theorem Prog.Leads.skip {α β : Type} {R : β → Errno → Prop} {P : Prog α} {K : α → Prog β} {e : Errno} (hk : ∀ a e, (K a).Leads B R e) : (P.bind K).Leads B R e :=
  (Prog.Leads.any P e).bind fun a e _ => hk a e

theorem Prog.Leads.critical {β : Type} {Q : β → Errno → Prop} {S : Sect} {e : Errno} {f : Choice → St → Errno → Res (St × Errno × β)}
    (h : ∀ ch σ σ' e' b, ¬ B σ → f ch σ e = .ok (σ', e', b) → Q b e') : (HM.critical ro S f).Leads B Q e := by
  intro ch σ tl σ' tl' b h1 h2 h3
  subst h1
  dsimp only at h3
  split at h3
  · cases h3
  · split at h3
    · rename_i e1
      cases h3
      exact h _ _ _ _ _ h2 e1
    all_goals cases h3

theorem setErrno_leads (e e0 : Errno) : (setErrno e).Leads B (fun _ e' => e' = e) e0 := by
  intro ch σ tl σ' tl' b _ _ h; cases h; rfl

theorem unsealMeta_leads (e : Errno) : unsealMeta.Leads B (fun _ e' => e' = e) e := by
  intro ch σ tl σ' tl' b h1 _ h; cases h; exact h1

theorem sealMeta_leads (e : Errno) : sealMeta.Leads B (fun _ e' => e' = e) e := by
  intro ch σ tl σ' tl' b h1 _ h; cases h; exact h1

theorem getErrno_leads (e : Errno) : getErrno.Leads B (fun x e' => x = e ∧ e' = e) e := by
  intro ch σ tl σ' tl' b h1 _ h; cases h; exact ⟨h1, h1⟩

/-- A wrapper of a system call: a failure leaves ENOMEM; without a naming call errno is ENOMEM or as before. -/
theorem sysCall_leads {lab : Bool} {f : Choice → Vm → Res (Vm × Bool)} {e : Errno} :
    (sysCall lab f).Leads B (fun b e' => (b = true → e' = ENOMEM) ∧ (lab = false → e' = ENOMEM ∨ e' = e)) e := by
  intro ch σ tl σ' tl' b h1 _ h
  dsimp only at h
  split at h
  · cases h
    refine ⟨fun hb => by dsimp only; rw [if_pos hb], fun hl => ?_⟩
    dsimp only
    split
    · exact .inl rfl
    · rw [hl]; exact .inr h1
  all_goals cases h

/-- The kernel gives no address below the first page. -/
theorem sysMap_leads {n : Nat} {e : Errno} : (sysMap n).Leads B (fun o e' => (o = none → e' = ENOMEM) ∧ ∀ p, o = some p → 4096 ≤ p) e := by
  intro ch σ tl σ' tl' b h1 _ h
  dsimp only at h
  split at h
  · rename_i a e1
    cases h
    refine ⟨(fun e => by cases e), fun p e => ?_⟩
    cases e
    unfold memoryMap at e1
    split at e1
    · cases e1
    · cases e1
    · split at e1
      · cases e1
      · split at e1
        · rename_i hh; cases e1; exact hh.2.1
        · cases e1
  · cases h
    exact ⟨fun _ => rfl, fun p e => by cases e⟩
  all_goals cases h

/-- NULL with ENOMEM, or a block. -/
def OrNull (o : Option Nat) (e : Errno) : Prop := (o = none → e = ENOMEM) ∧ o ≠ some 0

theorem OrNull.some {p : Nat} (hp : p ≠ 0) (e : Errno) : OrNull (.some p) e := ⟨(fun h => by cases h), fun h => hp (by cases h; rfl)⟩

theorem OrNull.none {e : Errno} (h : e = ENOMEM) : OrNull .none e := ⟨fun _ => h, fun h => by cases h⟩

theorem deallocatePages_leads {u n gd : Nat} {e : Errno} (he : e = ENOMEM) : (deallocatePages u n gd).Leads B (fun _ e' => e' = ENOMEM) e := by
  refine Prog.Leads.bind sysCall_leads fun b e1 h1 => ?_
  replace h1 : e1 = ENOMEM := (h1.2 rfl).elim id fun h => h.trans he
  cases b with
  | true => exact Prog.Leads.bind sysCall_leads fun _ _ h2 => (h2.2 rfl).elim id fun h => h.trans h1
  | false => exact h1

theorem unmapNone_leads {p n : Nat} {e : Errno} (he : e = ENOMEM) : ((sysUnmap p n).bind fun _ => .ret (none : Option Nat)).Leads B OrNull e :=
  Prog.Leads.bind sysCall_leads fun _ _ h2 => OrNull.none ((h2.2 rfl).elim id fun h => h.trans he)

theorem allocatePages_leads {n gd : Nat} {e : Errno} : (allocatePages n gd).Leads B OrNull e := by
  unfold allocatePages
  split
  · exact Prog.Leads.bind (setErrno_leads _ _) fun _ _ h => OrNull.none h
  · refine Prog.Leads.bind sysMap_leads fun o e1 h1 => ?_
    cases o with
    | none => exact OrNull.none (h1.1 rfl)
    | some real =>
      refine Prog.Leads.bind sysCall_leads fun b e2 h2 => ?_
      cases b with
      | true => exact unmapNone_leads (h2.1 rfl)
      | false => exact OrNull.some (by have := h1.2 _ rfl; omega) _

theorem allocatePagesAligned_leads {n al gd : Nat} {e : Errno} : (allocatePagesAligned n al gd).Leads B OrNull e := by
  unfold allocatePagesAligned
  dsimp only
  by_cases h1 : pageAlign n = 0
  · rw [if_pos h1]
    exact Prog.Leads.bind (setErrno_leads _ _) fun _ _ h => OrNull.none h
  rw [if_neg h1]
  generalize pageAlign n + sub64 al PAGE = d
  by_cases h2 : W64 ≤ d
  · rw [if_pos h2]
    exact Prog.Leads.bind (setErrno_leads _ _) fun _ _ h => OrNull.none h
  rw [if_neg h2]
  cases addGuards d gd with
  | none => exact Prog.Leads.bind (setErrno_leads _ _) fun _ _ h => OrNull.none h
  | some _ =>
  dsimp only
  unfold mapAligned
  refine Prog.Leads.bind sysMap_leads fun o e1 h1 => ?_
  cases o with
  | none => exact OrNull.none (h1.1 rfl)
  | some real =>
    have hr := h1.2 _ rfl
    refine Prog.Leads.bind sysCall_leads fun b e2 h2 => ?_
    cases b with
    | true => exact unmapNone_leads (h2.1 rfl)
    | false =>
      have opt : ∀ {q : Prop} [Decidable q] {P : Prog Bool} {e : Errno}, (∀ e, P.Leads B (fun b e' => b = true → e' = ENOMEM) e) →
          (if q then P else pure false).Leads B (fun b e' => b = true → e' = ENOMEM) e := by
        intro q _ P e h
        split
        · exact h e
        · intro h; cases h
      have cal : ∀ {f : Choice → Vm → Res (Vm × Bool)} (e : Errno), (sysCall false f).Leads B (fun b e' => b = true → e' = ENOMEM) e :=
        fun e => sysCall_leads.mono fun _ _ h => h.1
      unfold trimMapping
      refine Prog.Leads.bind (opt cal) fun b e3 h3 => ?_
      cases b with
      | true => exact unmapNone_leads (h3 rfl)
      | false =>
        refine Prog.Leads.bind (opt cal) fun b e4 h4 => ?_
        cases b with
        | true => exact unmapNone_leads (h4 rfl)
        | false => exact OrNull.some (by omega) _

/-- The table of large blocks is three quarters full and may not grow. -/
def AtLimit (ro : Ro) (σ : St) : Prop := σ.rt.free * 4 < σ.rt.total ∧ (σ.rt.total > (W64 - 1) / 24 / 2 ∨ σ.rt.total * 2 > ro.g.maxRegionTable)

theorem regionsInsert_refused {hash : Nat → Nat} {m : Nat} {b1 b2 : Bool} {t : RegTable} {r : RegionMeta} (e : regionsInsert hash m b1 b2 t r = .ok none) : t.free * 4 < t.total := by
  unfold regionsInsert at e
  by_contra hn
  rw [if_neg hn] at e
  obtain ⟨t', e1, e2⟩ := Res.of_bind e
  cases e1
  dsimp only at e2
  split at e2 <;> cases e2

theorem finishLarge_leads {n gd : Nat} {st : Bool} {o : Option Nat} {e : Errno} (h : OrNull o e) : (finishLarge ro n gd st o).Leads (AtLimit ro) OrNull e := by
  unfold finishLarge
  cases o with
  | none => exact OrNull.none (h.1 rfl)
  | some p =>
    refine Prog.Leads.bind (Q := fun b e => b = false → e = ENOMEM) (Prog.Leads.critical fun ch σ σ' e' b hB hf => ?_) fun b e1 h1 => ?_
    · rintro rfl
      split at hf
      · cases hf
      split at hf
      · cases hf
      · rename_i e1
        cases hf
        rw [if_neg fun hh => hB ⟨regionsInsert_refused e1, hh⟩]
      all_goals cases hf
    · cases b with
      | true => exact OrNull.some (fun hp => h.2 (by rw [hp])) _
      | false => exact Prog.Leads.bind (deallocatePages_leads (h1 rfl)) fun _ _ h => OrNull.none h

theorem allocateSmall_errno {base cls n : Nat} {ch : Choice} {c c' : SC} {vm vm' : Vm} {en en' : Errno} {o : Option Nat} (hb : 0 < base)
    (e : allocateSmall g base cls n ch c vm en = .ok (o, c', vm', en')) : OrNull o en' := by
  have pos : ∀ m k e, OrNull (some (slotPointer (g.slotSize cls) (slabAddr base (g.slabSize cls) m) k)) e :=
    fun m k e => OrNull.some (by unfold slotPointer slabAddr; omega) e
  unfold allocateSmall at e
  split at e
  · unfold allocFromPartial at e
    obtain ⟨⟨k, c1⟩, e1, e⟩ := Res.of_bind e
    obtain ⟨vm1, e2, e⟩ := Res.of_bind e
    cases e
    exact pos _ _ _
  split at e
  · unfold allocFromEmpty at e
    obtain ⟨⟨k, c1⟩, e1, e⟩ := Res.of_bind e
    obtain ⟨vm1, e2, e⟩ := Res.of_bind e
    cases e
    exact pos _ _ _
  split at e
  · unfold allocFromFree at e
    obtain ⟨⟨vm2, fl⟩, e0, e⟩ := Res.of_bind e
    dsimp only at e
    split at e
    · cases e; exact OrNull.none rfl
    obtain ⟨⟨k, c1⟩, e1, e⟩ := Res.of_bind e
    obtain ⟨vm1, e2, e⟩ := Res.of_bind e
    cases e
    exact pos _ _ _
  · unfold allocFromNew at e
    obtain ⟨⟨mo, c2, vm2, en2⟩, e0, e⟩ := Res.of_bind e
    unfold allocMetadata at e0
    obtain ⟨o, e3, e0⟩ := Res.of_bind e0
    cases o with
    | none => cases e0; cases e; exact OrNull.none rfl
    | some c3 =>
      dsimp only at e0
      obtain ⟨⟨vm3, fl⟩, e4, e0⟩ := Res.of_bind e0
      dsimp only at e0
      split at e0
      · cases e0; cases e; exact OrNull.none rfl
      cases e0
      dsimp only at e
      obtain ⟨⟨k, c1⟩, e1, e⟩ := Res.of_bind e
      obtain ⟨vm1, e2, e⟩ := Res.of_bind e
      cases e
      exact pos _ _ _

theorem smallAlloc_leads (hro : RoOk ro) {arena n : Nat} {e : Errno} : (smallAlloc ro arena n).Leads B OrNull e := by
  refine Prog.Leads.critical fun ch σ σ' e' b _ hf => ?_
  dsimp only at hf
  split at hf
  · cases hf
  split at hf
  · rename_i e1
    cases hf
    exact allocateSmall_errno (by have := hro.lo; unfold Ro.regionStart; omega) e1
  all_goals cases hf

theorem allocateLarge_leads {n : Nat} {e : Errno} : (allocateLarge ro n).Leads (AtLimit ro) OrNull e := by
  unfold allocateLarge
  dsimp only
  split
  · exact Prog.Leads.bind (setErrno_leads _ _) fun _ _ h => OrNull.none h
  · exact Prog.Leads.skip fun _ _ => Prog.Leads.bind allocatePages_leads fun _ _ h => finishLarge_leads h

theorem allocate_leads (hro : RoOk ro) {arena n : Nat} {e : Errno} : (allocate ro arena n).Leads (AtLimit ro) OrNull e := by
  unfold allocate
  split
  · exact smallAlloc_leads hro
  · exact allocateLarge_leads

theorem sealed_leads {o : Option Nat} {e : Errno} (h : OrNull o e) : (sealMeta.bind fun _ => .ret o).Leads B OrNull e :=
  Prog.Leads.bind (sealMeta_leads e) fun _ _ he => by rw [he]; exact h

theorem alloc_leads (hro : RoOk ro) {arena n : Nat} {e : Errno} : (alloc ro arena n).Leads (AtLimit ro) OrNull e :=
  Prog.Leads.skip fun _ _ => Prog.Leads.bind (allocate_leads hro) fun _ _ h => sealed_leads h

theorem reallocCopy_leads (hro : RoOk ro) {arena old oldSize n : Nat} {e : Errno} : (reallocCopy ro arena old oldSize n).Leads (AtLimit ro) OrNull e := by
  refine Prog.Leads.bind (allocate_leads hro) fun o e1 h1 => ?_
  cases o with
  | none => exact sealed_leads h1
  | some new =>
    have h0 : ∀ e, OrNull (some new) e := fun e => OrNull.some (fun hp => h1.2 (by rw [hp])) e
    refine Prog.Leads.skip fun _ _ => ?_
    dsimp only
    split <;> exact Prog.Leads.skip fun _ _ => Prog.Leads.skip fun _ e => h0 e

theorem reallocSized_leads (hro : RoOk ro) {arena old n : Nat} {e : Errno} (hold : old ≠ 0) : (reallocSized ro arena old n).Leads (AtLimit ro) OrNull e := by
  have h0 : ∀ e, OrNull (some old) e := fun e => OrNull.some hold e
  unfold reallocSized
  split
  · dsimp only
    split
    · exact h0 e
    · exact Prog.Leads.skip fun _ _ => reallocCopy_leads hro
  · unfold reallocLarge
    refine Prog.Leads.skip fun _ _ => Prog.Leads.skip fun r _ => ?_
    obtain ⟨oldSize, guard⟩ := r
    dsimp only
    split
    · exact Prog.Leads.skip fun _ e => h0 e
    split
    · unfold reallocShrink
      refine Prog.Leads.bind sysCall_leads fun b e1 h1 => ?_
      cases b with
      | true => exact sealed_leads (OrNull.none (h1.1 rfl))
      | false => exact Prog.Leads.skip fun _ _ => Prog.Leads.skip fun _ _ => Prog.Leads.skip fun _ e => h0 e
    split
    · unfold reallocMove
      refine Prog.Leads.bind allocateLarge_leads fun o e1 h1 => ?_
      cases o with
      | none => exact sealed_leads h1
      | some new =>
        have h2 : ∀ e, OrNull (some new) e := fun e => OrNull.some (fun hp => h1.2 (by rw [hp])) e
        refine Prog.Leads.skip fun _ _ => Prog.Leads.skip fun b _ => ?_
        cases b with
        | true => exact Prog.Leads.skip fun _ _ => Prog.Leads.skip fun _ _ => Prog.Leads.skip fun _ e => h2 e
        | false => exact Prog.Leads.skip fun _ _ => Prog.Leads.skip fun _ _ => Prog.Leads.skip fun _ e => h2 e
    · exact reallocCopy_leads hro

theorem hRealloc_leads (hro : RoOk ro) {arena old n : Nat} {e : Errno} : (hRealloc ro arena old n).Leads (AtLimit ro) OrNull e := by
  unfold hRealloc
  dsimp only
  split
  · exact alloc_leads hro
  rename_i h0
  split
  · split
    · exact Prog.Leads.bind (setErrno_leads _ _) fun _ _ h => OrNull.none h
    · exact reallocSized_leads hro h0
  · exact reallocSized_leads hro h0

/-- The alignment is not acceptable: EINVAL. Otherwise ENOMEM or a block. -/
def AlignedOr (al mn : Nat) (r : Except Errno Nat) : Prop :=
  match r with
  | .error e => ErrnoFor ((∃ k, al = 2 ^ k) ∧ mn ≤ al) e
  | .ok p => p ≠ 0 ∧ (∃ k, al = 2 ^ k) ∧ mn ≤ al

theorem allocateOverAligned_leads {al n : Nat} {e : Errno} : (allocateOverAligned ro al n).Leads B (fun o _ => o ≠ some 0) e := by
  unfold allocateOverAligned
  dsimp only
  split
  · intro h; cases h
  · refine Prog.Leads.skip fun _ _ => Prog.Leads.bind allocatePagesAligned_leads fun o _ h => ?_
    unfold finishLarge
    cases o with
    | none => intro h; cases h
    | some p =>
      refine Prog.Leads.skip fun b _ => ?_
      cases b with
      | true => exact h.2
      | false => exact Prog.Leads.skip fun _ _ => by intro h; cases h

theorem allocate_leads0 (hro : RoOk ro) {arena n : Nat} {e : Errno} : (allocate ro arena n).Leads B (fun o _ => o ≠ some 0) e := by
  unfold allocate
  split
  · exact (smallAlloc_leads hro).mono fun _ _ h => h.2
  · unfold allocateLarge
    dsimp only
    split
    · exact Prog.Leads.skip fun _ _ => by intro h; cases h
    · refine Prog.Leads.skip fun _ _ => Prog.Leads.bind allocatePages_leads fun o _ h => ?_
      unfold finishLarge
      cases o with
      | none => intro h; cases h
      | some p =>
        refine Prog.Leads.skip fun b _ => ?_
        cases b with
        | true => exact h.2
        | false => exact Prog.Leads.skip fun _ _ => by intro h; cases h

theorem allocAligned_leads (hro : RoOk ro) {arena al n mn : Nat} {e : Errno} (hal : al < W64) (hmn : 0 < mn) :
    (allocAligned ro arena al n mn).Leads B (fun r _ => AlignedOr al mn r) e := by
  refine Prog.Leads.skip fun _ _ => Prog.Leads.bind (Q := fun r _ => AlignedOr al mn r) ?_ fun _ _ h => Prog.Leads.skip fun _ _ => h
  unfold allocateAligned
  split
  · rename_i hbad
    refine .inr ⟨?_, rfl⟩
    rintro ⟨⟨k, rfl⟩, h2⟩
    have hk : k < 64 := by
      by_contra hk
      have : 2 ^ 64 ≤ 2 ^ k := Nat.pow_le_pow_right (by omega) (by omega)
      omega
    rcases hbad with hbad | hbad
    · exact hbad (mask_of_pow hk)
    · omega
  rename_i hok
  have hv : (∃ k, al = 2 ^ k) ∧ mn ≤ al := by
    have h1 : mn ≤ al := by
      by_contra h; exact hok (.inr (by omega))
    obtain ⟨k, _, hk⟩ := pow_of_mask hal (by omega) (Classical.not_not.mp fun h => hok (.inl h))
    exact ⟨⟨k, hk⟩, h1⟩
  have fin : ∀ (o : Option Nat) (e : Errno), o ≠ some 0 →
      (match o with | none => (Prog.ret (.error ENOMEM) : Prog (Except Errno Nat)) | some p => .ret (.ok p)).Leads B (fun r _ => AlignedOr al mn r) e := by
    intro o e h
    cases o with
    | none => exact .inl ⟨hv, rfl⟩
    | some p => exact ⟨fun hp => h (by rw [hp]), hv⟩
  split
  · split
    · split
      · intro ch σ tl σ' tl' b; exact nomatch b
      · exact Prog.Leads.bind (allocate_leads0 hro) fin
    · exact Prog.Leads.bind (allocate_leads0 hro) fin
  · exact Prog.Leads.bind allocateOverAligned_leads fin

theorem allocAlignedSimple_leads (hro : RoOk ro) {arena al n : Nat} {e : Errno} (hal : al < W64) :
    (allocAlignedSimple ro arena al n).Leads B (fun o e => match o with | none => ErrnoFor (∃ k, al = 2 ^ k) e | some p => p ≠ 0 ∧ ∃ k, al = 2 ^ k) e := by
  refine Prog.Leads.bind (allocAligned_leads hro hal (by omega)) fun r e1 h => ?_
  have h1 : ∀ {q : Prop}, (∃ k, al = 2 ^ k) ∧ q → ∃ k, al = 2 ^ k := fun h => h.1
  cases r with
  | error e' =>
    refine Prog.Leads.bind (setErrno_leads _ _) fun _ _ he => ?_
    subst he
    rcases h with ⟨h, he⟩ | ⟨h, he⟩
    · exact .inl ⟨h.1, he⟩
    · refine .inr ⟨fun h' => h ⟨h', ?_⟩, he⟩
      obtain ⟨k, rfl⟩ := h'
      exact Nat.one_le_two_pow
  | ok p => exact ⟨h.1, h.2.1⟩

/-! ### Calls -/

/-- What a failing call reports. -/
def Call.Reports (c : Call) (x : Ret) (e : Errno) : Prop :=
  match c with
  | .posixMemalign al _ => ∃ e, x = .memalign (.error e) ∧ ErrnoFor ((∃ k, al = 2 ^ k) ∧ 8 ≤ al) e
  | .alignedAlloc al _ => x = .ptr 0 ∧ ErrnoFor (∃ k, al = 2 ^ k) e
  | _ => x = .ptr 0 ∧ e = ENOMEM

/-- The call asks for a block. -/
def Call.Asks (c : Call) : Prop := c.request.isSome = true ∨ ∃ p n, c = .realloc p n

theorem Call.leads (hro : RoOk ro) {c : Call} (hok : c.Ok) (hc : c.Asks) (arena : Nat) (e : Errno) :
    (c.prog ro arena).Leads (AtLimit ro) (fun x e => x.block = none → c.Reports x e) e := by
  have nz : ∀ {p : Nat}, p ≠ 0 → (retPtr (some p)).block ≠ none := fun {p} hp h => by
    rw [show (retPtr (some p)).block = some p from if_neg hp] at h; cases h
  have fin : ∀ (o : Option Nat) (e : Errno), OrNull o e → (retPtr o).block = none → retPtr o = .ptr 0 ∧ e = ENOMEM := by
    intro o e h hn
    cases o with
    | none => exact ⟨rfl, h.1 rfl⟩
    | some p => exact absurd hn (nz fun hp => h.2 (by rw [hp]))
  have page : ∀ {o : Option Nat} {e : Errno}, (match o with | none => ErrnoFor (∃ k, PAGE = 2 ^ k) e | some p => p ≠ 0 ∧ ∃ k, PAGE = 2 ^ k) → OrNull o e := by
    intro o e h
    cases o with
    | none => exact OrNull.none (h.resolve_right fun h => h.1 ⟨12, rfl⟩).2
    | some p => exact OrNull.some h.1 _
  cases c with
  | malloc n => exact Prog.Leads.bind (alloc_leads hro) fin
  | calloc n k =>
    refine Prog.Leads.bind ?_ fin
    unfold hCalloc
    split
    · exact Prog.Leads.bind (setErrno_leads _ _) fun _ _ h => OrNull.none h
    · refine Prog.Leads.bind (alloc_leads hro) fun o e1 h => ?_
      cases o with
      | none => exact h
      | some p =>
        have h0 : ∀ e, OrNull (some p) e := fun e => OrNull.some (fun hp => h.2 (by rw [hp])) e
        dsimp only
        split
        · exact Prog.Leads.skip fun _ e => h0 e
        · exact h
  | realloc p n => exact Prog.Leads.bind (hRealloc_leads hro) fin
  | posixMemalign al n =>
    refine Prog.Leads.bind (allocAligned_leads hro hok.1 (by omega)) fun r e1 h hn => ?_
    cases r with
    | error e => exact ⟨e, rfl, h⟩
    | ok p => cases hn
  | alignedAlloc al n =>
    refine Prog.Leads.bind (allocAlignedSimple_leads hro hok.1) fun o e1 h hn => ?_
    cases o with
    | none => exact ⟨rfl, h⟩
    | some p => exact absurd hn (nz h.1)
  | valloc n => exact Prog.Leads.bind (allocAlignedSimple_leads hro (by decide)) fun o e h => fin o e (page h)
  | pvalloc n =>
    refine Prog.Leads.bind ?_ fin
    unfold hPvalloc
    split
    · exact Prog.Leads.bind (setErrno_leads _ _) fun _ _ h => OrNull.none h
    · exact (allocAlignedSimple_leads hro (by decide)).mono fun o e h => page h
  | _ => rcases hc with hc | ⟨_, _, hc⟩ <;> cases hc

/-- The call asks for what no address space has room for, or for an alignment that is none. -/
def Call.Invalid : Call → Prop
  | .malloc n => 2 ^ 63 ≤ n
  | .calloc n k => 2 ^ 63 ≤ n * k
  | .posixMemalign al _ => ¬ ((∃ k, al = 2 ^ k) ∧ 8 ≤ al)
  | .alignedAlloc al _ => ¬ ∃ k, al = 2 ^ k
  | _ => False

theorem sysMap_big {n : Nat} (hn : 2 ^ 63 ≤ n) {e : Errno} : (sysMap n).Leads B (fun o e' => o = none ∧ e' = ENOMEM) e := by
  intro ch σ tl σ' tl' b h1 _ h
  dsimp only at h
  split at h
  · rename_i a e1
    cases h
    unfold memoryMap at e1
    split at e1
    · cases e1
    · cases e1
    · split at e1
      · cases e1
      · split at e1
        · rename_i hh; have := hh.2.1; have := hh.2.2.1; omega
        · cases e1
  · cases h
    exact ⟨rfl, rfl⟩
  all_goals cases h

theorem allocate_big (hv : ro.g.maxSlab < 2 ^ 63) {arena n : Nat} (hn : 2 ^ 63 ≤ n) (hn' : n < W64) {e : Errno} :
    (alloc ro arena n).Leads B (fun o e => o = none ∧ e = ENOMEM) e := by
  refine Prog.Leads.skip fun _ _ => Prog.Leads.bind (Q := fun o e => o = none ∧ e = ENOMEM) ?_
    fun _ _ h => Prog.Leads.bind (sealMeta_leads _) fun _ _ he => by rw [he]; exact h
  unfold allocate
  rw [if_neg (by omega)]
  unfold allocateLarge
  dsimp only
  split
  · exact Prog.Leads.bind (setErrno_leads _ _) fun _ _ h => ⟨rfl, h⟩
  · rename_i h0
    have h1 := (getLargeSizeClass_ok ro.g hn' h0).1
    refine Prog.Leads.skip fun gd _ => Prog.Leads.bind (Q := fun o e => o = none ∧ e = ENOMEM) ?_ fun o _ h => ?_
    · unfold allocatePages
      split
      · exact Prog.Leads.bind (setErrno_leads _ _) fun _ _ h => ⟨rfl, h⟩
      · rename_i rs hr
        have h2 : getLargeSizeClass ro.g n ≤ rs := by
          unfold addGuards at hr
          split at hr
          · cases hr
          · split at hr
            · cases hr
            · cases hr; omega
        refine Prog.Leads.bind (sysMap_big (by omega)) fun o _ h => ?_
        rw [h.1]
        exact ⟨rfl, h.2⟩
    · rw [h.1]
      exact ⟨rfl, h.2⟩

theorem Call.refuses (hro : RoOk ro) {c : Call} (hok : c.Ok) (hc : c.Invalid) (arena : Nat) (e : Errno) :
    (c.prog ro arena).Leads B (fun x e => match c with | .posixMemalign _ _ => x = .memalign (.error EINVAL) | .alignedAlloc _ _ => x = .ptr 0 ∧ e = EINVAL | _ => x = .ptr 0 ∧ e = ENOMEM) e := by
  have hm : ro.g.maxSlab < 2 ^ 63 := by unfold Cfg.maxSlab; split <;> omega
  have adj : ∀ {n}, 2 ^ 63 ≤ n → adjustSizeForCanary ro.g n = n := fun {n} h => by unfold adjustSizeForCanary; rw [if_neg (by omega)]
  cases c with
  | malloc n =>
    have hn : 2 ^ 63 ≤ n := hc
    refine Prog.Leads.bind (Q := fun o e => o = none ∧ e = ENOMEM) ?_ fun o _ h => by rw [h.1]; exact ⟨rfl, h.2⟩
    unfold hMalloc
    rw [adj hn]
    exact allocate_big hm hn hok
  | calloc n k =>
    have hn : 2 ^ 63 ≤ n * k := hc
    refine Prog.Leads.bind (Q := fun o e => o = none ∧ e = ENOMEM) ?_ fun o _ h => by rw [h.1]; exact ⟨rfl, h.2⟩
    unfold hCalloc
    split
    · exact Prog.Leads.bind (setErrno_leads _ _) fun _ _ h => ⟨rfl, h⟩
    · dsimp only
      rw [adj hn]
      refine Prog.Leads.bind (allocate_big hm hn (by omega)) fun o _ h => ?_
      rw [h.1]
      exact ⟨rfl, h.2⟩
  | posixMemalign al n =>
    refine Prog.Leads.bind (allocAligned_leads hro hok.1 (by omega)) fun r _ h => ?_
    cases r with
    | error e =>
      show Ret.memalign (.error e) = _
      rw [(h.resolve_left fun h => hc h.1).2]
    | ok p => exact absurd h.2 hc
  | alignedAlloc al n =>
    refine Prog.Leads.bind (allocAlignedSimple_leads hro hok.1) fun o _ h => ?_
    cases o with
    | none => exact ⟨rfl, (h.resolve_left fun h => hc h.1).2⟩
    | some p => exact absurd h.2 hc
  | _ => exact hc.elim

theorem free_leads {p : Nat} (hp : ro.inSlab p = false) (arena : Nat) (e : Errno) : ((Call.free p).prog ro arena).Leads B (fun _ e' => e' = e) e := by
  refine Prog.Leads.bind (Q := fun _ e' => e' = e) ?_ fun _ _ h => h
  unfold hFree
  split
  · rfl
  · rw [hp]
    refine Prog.Leads.bind (getErrno_leads e) fun sv _ h => Prog.Leads.skip fun _ _ => ?_
    rw [h.1]
    exact Prog.Leads.bind (setErrno_leads _ _) fun _ e1 h1 => by rw [h1]; exact sealMeta_leads e

/-! ### Executions -/

/-- From the beginning of a call to its return: what its program does is not disturbed by the steps of others, nor by the application. -/
theorem WSteps.leads {h0 h2 : List CEv} {s0 s1 s2 s3 : CSys} {t b : Nat} {c : Call} {x : Ret} {Q : Ret → Errno → Prop}
    (inv : WStep ro ar calm h0 s0 (.inv t c b :: h0) s1) (hP : (c.prog ro (ar t)).Leads B Q (s0.tl t).errno)
    (st : WSteps ro ar calm (fun _ s => (s.run t).isSome = true ∧ ¬ B s.σ) (.inv t c b :: h0) s1 h2 s2)
    (ret : WStep ro ar calm h2 s2 (.ret t c x :: h2) s3) : Q x (s3.tl t).errno := by
  have key : ∀ c' P, s2.run t = some (c', P) → P.Leads B Q (s2.tl t).errno := by
    clear ret
    induction st with
    | refl =>
      intro c' P e
      cases inv with
      | invoke t c b hi hok hl =>
        change upd s0.run t _ t = _ at e
        rw [upd, if_pos rfl] at e
        cases e
        exact hP
    | @tail hh h' ss s' rs hI st ih =>
      intro c' P e
      cases st with
      | invoke t' c2 b' hi hok hl =>
        change upd ss.run t' _ t = _ at e
        unfold upd at e
        split at e
        · rename_i et
          subst et
          rw [hi] at hI
          cases hI.1
        · exact ih _ _ e
      | step t' hc2 he hf =>
        change upd ss.run t' _ t = _ at e
        show P.Leads B Q ((upd ss.tl t' _) t).errno
        unfold upd at e ⊢
        split at e
        · rename_i et
          subst et
          rw [if_pos rfl]
          cases e
          exact ih _ _ hc2 _ _ _ _ _ _ rfl hI.2 hf
        · rename_i et
          rw [if_neg et]
          exact ih _ _ e
      | ret t' hc2 =>
        change upd ss.run t' _ t = _ at e
        unfold upd at e
        split at e
        · cases e
        · exact ih _ _ e
      | store => exact ih _ _ e
      | errno t' en hi =>
        show P.Leads B Q ((upd ss.tl t' _) t).errno
        unfold upd
        split
        · rename_i et
          subst et
          change ss.run t = _ at e
          rw [hi] at e; cases e
        · exact ih _ _ e
      | fork => cases e
      | other => exact ih _ _ e
  cases ret with
  | ret t hc2 => exact key _ _ hc2

/-- More large blocks are on record than three eighths of the largest number that the table of large blocks can hold. -/
def ManyRecorded (ro : Ro) (σ : St) : Prop :=
  ∃ l : List Nat, l.Nodup ∧ (∀ p ∈ l, ∃ u gd, σ.rt.Has ⟨p, u, gd⟩) ∧ 3 * (ro.g.classRegionSize / 4096 / 24) < 8 * l.length

theorem AtLimit.many (hro : RoOk ro) {σ : St} (hi : Sane ro σ) (hl : AtLimit ro σ) : ManyRecorded ro σ := by
  obtain ⟨w, hi, _, e, _⟩ := hi
  unfold AtLimit at hl
  unfold ManyRecorded
  rw [e] at hl ⊢
  obtain ⟨h1, h2⟩ := hl
  refine ⟨w.σ.rt.regs.toList.map RegionMeta.p, ?_, ?_, ?_⟩
  · refine List.Nodup.map_on ?_ (Finset.nodup_toList _)
    intro r hr r' hr' e
    rw [Finset.mem_toList, RegTable.mem_regs] at hr hr'
    exact hi.has_unique hr hr' e
  · intro p hp
    rw [List.mem_map] at hp
    obtain ⟨⟨q, sz, gd⟩, hr, rfl⟩ := hp
    rw [Finset.mem_toList, RegTable.mem_regs] at hr
    exact ⟨sz, gd, hr⟩
  · rw [List.length_map, Finset.length_toList]
    have h3 := regs_card hi.rt
    have := hro.valid.classRegionMax
    unfold Cfg.maxRegionTable at h2
    have e : ro.g.classRegionSize / PAGE / 24 = ro.g.classRegionSize / 4096 / 24 := rfl
    rw [e] at h2
    have : ro.g.classRegionSize / 4096 / 24 ≤ 268435456 := by omega
    rcases h2 with h2 | h2
    · have : (18446744073709551616 - 1) / 24 / 2 < w.σ.rt.total := h2
      omega
    · omega

theorem WSteps.weaken {I I' : List CEv → CSys → Prop} {h0 h1 : List CEv} {s0 s1 : CSys} (st : WSteps ro ar calm I h0 s0 h1 s1) (r : WReach g ro ar calm h0 s0)
    (hk : ∀ h s, WReach g ro ar calm h s → I h s → I' h s) : WSteps ro ar calm I' h0 s0 h1 s1 ∧ WReach g ro ar calm h1 s1 := by
  induction st with
  | refl => exact ⟨.refl, r⟩
  | tail _ hI st ih => exact ⟨.tail ih.1 (hk _ _ ih.2 hI) st, ih.2.next st⟩

/-- C61 (C25, C41). Thread `t` calls a function that allocates and gets no block. Then it is told why, whatever other threads do meanwhile: EINVAL if the alignment was not valid, ENOMEM otherwise.
(`posix_memalign` returns the code, the others leave it in errno.) What is missing: if so many large blocks exist at some moment of the call that the table of large blocks has reached its
size limit, then errno may stay as it was (see `c25_errno_unset`). -/
theorem c61_errno_partial (hg : Good g ar) {h0 h2 : List CEv} {s0 s1 s2 s3 : CSys} {t b : Nat} {c : Call} {x : Ret} (hc : c.request.isSome = true ∨ ∃ p n, c = .realloc p n)
    (r0 : WReach g ro ar calm h0 s0) (inv : WStep ro ar calm h0 s0 (.inv t c b :: h0) s1)
    (st : WSteps ro ar calm (fun _ s => (s.run t).isSome = true ∧ ¬ ManyRecorded ro s.σ) (.inv t c b :: h0) s1 h2 s2)
    (ret : WStep ro ar calm h2 s2 (.ret t c x :: h2) s3) (hx : x.block = none) :
    match (generalizing := false) c with
    | .posixMemalign al _ => ∃ e, x = .memalign (.error e) ∧ ErrnoFor ((∃ k, al = 2 ^ k) ∧ 8 ≤ al) e
    | .alignedAlloc al _ => x = .ptr 0 ∧ ErrnoFor (∃ k, al = 2 ^ k) (s3.tl t).errno
    | _ => x = .ptr 0 ∧ (s3.tl t).errno = ENOMEM := by
  obtain ⟨⟨_, r0', _⟩, _⟩ := r0.shadow hg
  obtain ⟨hro, rfl⟩ := r0'.roOk hg
  have st' := (st.weaken (I' := fun _ s => (s.run t).isSome = true ∧ ¬ AtLimit ro s.σ) (r0.next inv) fun h s r hI => ⟨hI.1, fun hl => hI.2 (hl.many hro (r.sane hg))⟩).1
  have hok : c.Ok := by cases inv; assumption
  exact WSteps.leads inv (Call.leads hro hok hc (ar t) _) st' ret hx

/-- C61 (C41, C07). A request that no address space can meet, or with an invalid alignment, is refused, with the right code, whatever other threads do meanwhile. -/
theorem c61_refuses (hg : Good g ar) {h0 h2 : List CEv} {s0 s1 s2 s3 : CSys} {t b : Nat} {c : Call} {x : Ret} (hc : c.Invalid)
    (r0 : WReach g ro ar calm h0 s0) (inv : WStep ro ar calm h0 s0 (.inv t c b :: h0) s1)
    (st : WSteps ro ar calm (fun _ s => (s.run t).isSome = true) (.inv t c b :: h0) s1 h2 s2) (ret : WStep ro ar calm h2 s2 (.ret t c x :: h2) s3) :
    match (generalizing := false) c with
    | .posixMemalign _ _ => x = .memalign (.error EINVAL)
    | .alignedAlloc _ _ => x = .ptr 0 ∧ (s3.tl t).errno = EINVAL
    | _ => x = .ptr 0 ∧ (s3.tl t).errno = ENOMEM := by
  obtain ⟨⟨_, r0', _⟩, _⟩ := r0.shadow hg
  obtain ⟨hro, rfl⟩ := r0'.roOk hg
  have st' := (st.weaken (I' := fun _ s => (s.run t).isSome = true ∧ ¬ False) (r0.next inv) fun h s _ hI => ⟨hI, id⟩).1
  have hok : c.Ok := by cases inv; assumption
  exact WSteps.leads (B := fun _ => False) inv (Call.refuses hro hok hc (ar t) _) st' ret

/-- C61 (C25), partial. `free` leaves errno as it is, whatever other threads do meanwhile. What is missing: small blocks, whose release can overwrite errno when a naming call fails (see `c25_free_changes_errno`). -/
theorem c61_free_keeps_partial {h0 h2 : List CEv} {s0 s1 s2 s3 : CSys} {t b p : Nat} {x : Ret} (hp : ¬ (ro.slabStart ≤ p ∧ p < ro.slabEnd))
    (r0 : WReach g ro ar calm h0 s0) (inv : WStep ro ar calm h0 s0 (.inv t (.free p) b :: h0) s1)
    (st : WSteps ro ar calm (fun _ s => (s.run t).isSome = true) (.inv t (.free p) b :: h0) s1 h2 s2) (ret : WStep ro ar calm h2 s2 (.ret t (.free p) x :: h2) s3) :
    (s3.tl t).errno = (s0.tl t).errno := by
  have st' := (st.weaken (I' := fun _ s => (s.run t).isSome = true ∧ ¬ False) (r0.next inv) fun h s _ hI => ⟨hI, id⟩).1
  refine WSteps.leads (B := fun _ => False) inv (free_leads ?_ (ar t) _) st' ret
  unfold Ro.inSlab
  rw [Bool.and_eq_false_iff, decide_eq_false_iff_not, decide_eq_false_iff_not]
  omega

/-! ### Examples -/


def exSpan (t : Nat) (c : Call) (b : Nat) (x : Ret) (I : CSys → Bool) (path : List ExC) (P : CSys → CSys → Bool) (h : List CEv) (s : CSys) : Bool :=
  ((ExC.inv t c b).runW (exRo false true) (fun t => t % 4) h s).any fun y => (pathW (exRo false true) (fun t => t % 4) I path y.1 y.2).any fun z =>
    (match z.2.run t with | some (c', .ret x') => decide (c' = c) && decide (x' = x) | _ => false) && P s z.2

/-- An execution with a call of thread `t` from its beginning to its return. -/
theorem ex_span {calm : Bool} (as : List ExC) (t : Nat) (c : Call) (b : Nat) (x : Ret) (I : CSys → Bool) (path : List ExC) (P : CSys → CSys → Bool)
    (e : ((runW (exRo false true) (fun t => t % 4) as [] ⟨exSt, fun _ => ⟨0, false⟩, fun _ => none, fun _ => exSt⟩).any fun y => exSpan t c b x I path P y.1 y.2) = true) :
    ∃ h0 s0 s1 h2 s2 s3, WReach (exCfg false true) (exRo false true) (fun t => t % 4) calm h0 s0 ∧
      WStep (exRo false true) (fun t => t % 4) calm h0 s0 (.inv t c b :: h0) s1 ∧
      WSteps (exRo false true) (fun t => t % 4) calm (fun _ s => I s = true) (.inv t c b :: h0) s1 h2 s2 ∧
      WStep (exRo false true) (fun t => t % 4) calm h2 s2 (.ret t c x :: h2) s3 ∧ s3.tl = s2.tl ∧ s3.σ = s2.σ ∧ P s0 s2 = true := by
  obtain ⟨h, s, r, h2⟩ := ex_wild (stats := false) (sealed := true) (calm := calm) as (exSpan t c b x I path P) e
  unfold exSpan at h2
  rw [Option.any_eq_true] at h2
  obtain ⟨⟨h1, s1⟩, e1, h2⟩ := h2
  rw [Option.any_eq_true] at h2
  obtain ⟨⟨h2, s2⟩, e2, h3⟩ := h2
  rw [Bool.and_eq_true] at h3
  have i1 : WStep (exRo false true) (fun t => t % 4) calm h s h1 s1 := ExC.runW_step (by simp) e1
  simp only [ExC.runW] at e1
  split at e1
  · cases e1
    have st := pathW_steps (calm := calm) (J := fun _ s => I s = true) (fun _ s e => e) .refl e2
    obtain ⟨k1, k2⟩ := h3
    have : s2.run t = some (c, .ret x) := by
      cases hr : s2.run t with
      | none => rw [hr] at k1; cases k1
      | some y =>
        rw [hr] at k1
        split at k1
        · rename_i e; simp only [Bool.and_eq_true, decide_eq_true_eq] at k1; rw [k1.1, k1.2] at e; rw [← e]
        · cases k1
    exact ⟨h, s, _, h2, s2, _, r, i1, st, .ret t this, rfl, rfl, k2⟩
  · cases e1

theorem not_many {σ : St} (h : 8 * σ.rt.total ≤ 3 * (ro.g.classRegionSize / 4096 / 24)) : ¬ ManyRecorded ro σ := by
  rintro ⟨l, h1, h2, h3⟩
  have e : l.toFinset ⊆ (Finset.range σ.rt.total).image fun i => (σ.rt.tab i).p := by
    intro p hp
    obtain ⟨u, gd, _, i, hi, e⟩ := h2 p (by simpa using hp)
    rw [Finset.mem_image]
    exact ⟨i, by simpa using hi, by rw [e]⟩
  have h4 := (Finset.card_le_card e).trans Finset.card_image_le
  rw [List.toFinset_card_of_nodup h1, Finset.card_range] at h4
  omega

/-- What `c61_errno_partial` assumes happens: thread 4 is in the middle of `calloc` when thread 0 asks for a large block and the system
has no address range for it. -/
example : ∃ h0 s0 s1 h2 s2 s3 x, WReach (exCfg false true) (exRo false true) (fun t => t % 4) false h0 s0 ∧
    WStep (exRo false true) (fun t => t % 4) false h0 s0 (.inv 0 (.malloc 200000) 0 :: h0) s1 ∧
    WSteps (exRo false true) (fun t => t % 4) false (fun _ s => (s.run 0).isSome = true ∧ ¬ ManyRecorded (exRo false true) s.σ) (.inv 0 (.malloc 200000) 0 :: h0) s1 h2 s2 ∧
    WStep (exRo false true) (fun t => t % 4) false h2 s2 (.ret 0 (.malloc 200000) x :: h2) s3 ∧ x.block = none ∧ (s0.tl 0).errno = 0 ∧ (s3.tl 0).errno = 12 ∧
    (∃ P, s2.run 4 = some (.calloc 300 10, P)) := by
  obtain ⟨h0, s0, s1, h2, s2, s3, r, i, st, rt, e, _, k⟩ := ex_span (calm := false) [.inv 1 (.malloc 100) 0, .go 1 99 0, .ret 1, .inv 4 (.calloc 300 10) 0, .go 4 1 0] 0 (.malloc 200000) 0 (.ptr 0)
    (fun s => (s.run 0).isSome && decide (8 * s.σ.rt.total ≤ 3 * ((exRo false true).g.classRegionSize / 4096 / 24)))
    [.go 0 1 0, .go 4 1 0, .go 0 1 0, .go 0 1 0, .go 0 1 0] (fun s s' => decide ((s.tl 0).errno = 0) && decide ((s'.tl 0).errno = 12) && (s'.run 4).any fun (x : Call × Prog Ret) => decide (x.1 = Call.calloc 300 10)) (by decide +kernel)
  simp only [Bool.and_eq_true, decide_eq_true_eq] at k
  obtain ⟨⟨k1, k2⟩, k3⟩ := k
  rw [Option.any_eq_true] at k3
  obtain ⟨⟨c, P⟩, k3, k4⟩ := k3
  simp only [decide_eq_true_eq] at k4
  subst k4
  refine ⟨h0, s0, s1, h2, s2, s3, _, r, i, (st.weaken (r.next i) fun h s _ hI => ?_).1, rt, by decide, k1, by rw [e]; exact k2, P, k3⟩
  rw [Bool.and_eq_true, decide_eq_true_eq] at hI
  exact ⟨hI.1, not_many hI.2⟩

/-- What `c61_refuses` assumes happens, for two of the functions. -/
example : ∃ h0 s0 s1 h2 s2 s3 x, WReach (exCfg false true) (exRo false true) (fun t => t % 4) false h0 s0 ∧ (Call.calloc (2 ^ 62) 3).Invalid ∧
    WStep (exRo false true) (fun t => t % 4) false h0 s0 (.inv 0 (.calloc (2 ^ 62) 3) 0 :: h0) s1 ∧
    WSteps (exRo false true) (fun t => t % 4) false (fun _ s => (s.run 0).isSome = true) (.inv 0 (.calloc (2 ^ 62) 3) 0 :: h0) s1 h2 s2 ∧
    WStep (exRo false true) (fun t => t % 4) false h2 s2 (.ret 0 (.calloc (2 ^ 62) 3) x :: h2) s3 ∧ (s0.tl 0).errno = 0 ∧ (s3.tl 0).errno = 12 := by
  obtain ⟨h0, s0, s1, h2, s2, s3, r, i, st, rt, e, _, k⟩ := ex_span (calm := false) [.inv 1 (.malloc 100) 0, .go 1 99 0, .ret 1, .inv 4 (.calloc 300 10) 0, .go 4 1 0] 0 (.calloc (2 ^ 62) 3) 0 (.ptr 0)
    (fun s => (s.run 0).isSome) [.go 0 1 0, .go 4 1 0, .go 0 1 0, .go 0 1 0, .go 0 1 0] (fun s s' => decide ((s.tl 0).errno = 0) && decide ((s'.tl 0).errno = 12)) (by decide +kernel)
  simp only [Bool.and_eq_true, decide_eq_true_eq] at k
  exact ⟨h0, s0, s1, h2, s2, s3, _, r, by show 2 ^ 63 ≤ 2 ^ 62 * 3; decide, i, st, rt, k.1, by rw [e]; exact k.2⟩

example : ∃ h0 s0 s1 h2 s2 s3 x, WReach (exCfg false true) (exRo false true) (fun t => t % 4) false h0 s0 ∧ (Call.alignedAlloc 0 10).Invalid ∧
    WStep (exRo false true) (fun t => t % 4) false h0 s0 (.inv 0 (.alignedAlloc 0 10) 0 :: h0) s1 ∧
    WSteps (exRo false true) (fun t => t % 4) false (fun _ s => (s.run 0).isSome = true) (.inv 0 (.alignedAlloc 0 10) 0 :: h0) s1 h2 s2 ∧
    WStep (exRo false true) (fun t => t % 4) false h2 s2 (.ret 0 (.alignedAlloc 0 10) x :: h2) s3 ∧ (s0.tl 0).errno = 0 ∧ (s3.tl 0).errno = 22 := by
  obtain ⟨h0, s0, s1, h2, s2, s3, r, i, st, rt, e, _, k⟩ := ex_span (calm := false) [.inv 4 (.calloc 300 10) 0, .go 4 1 0] 0 (.alignedAlloc 0 10) 0 (.ptr 0)
    (fun s => (s.run 0).isSome) [.go 0 1 0, .go 4 1 0, .go 0 1 0, .go 0 1 0] (fun s s' => decide ((s.tl 0).errno = 0) && decide ((s'.tl 0).errno = 22)) (by decide +kernel)
  simp only [Bool.and_eq_true, decide_eq_true_eq] at k
  exact ⟨h0, s0, s1, h2, s2, s3, _, r, fun ⟨k, hk⟩ => absurd hk (Nat.two_pow_pos k).ne, i, st, rt, k.1, by rw [e]; exact k.2⟩

/-- What `c61_free_keeps_partial` assumes happens: a large block is freed with errno at ENOMEM from a failed request before. -/
example : ∃ h0 s0 s1 h2 s2 s3 x, WReach (exCfg false true) (exRo false true) (fun t => t % 4) false h0 s0 ∧
    WStep (exRo false true) (fun t => t % 4) false h0 s0 (.inv 0 (.free exBig) exBig :: h0) s1 ∧
    WSteps (exRo false true) (fun t => t % 4) false (fun _ s => (s.run 0).isSome = true) (.inv 0 (.free exBig) exBig :: h0) s1 h2 s2 ∧
    WStep (exRo false true) (fun t => t % 4) false h2 s2 (.ret 0 (.free exBig) x :: h2) s3 ∧ (s0.tl 0).errno = 12 := by
  obtain ⟨h0, s0, s1, h2, s2, s3, r, i, st, rt, e, _, k⟩ := ex_span (calm := false)
    [.inv 0 (.malloc 200000) 0, .go 0 99 exMapAt, .ret 0, .inv 0 (.malloc 200000) 0, .go 0 99 0, .ret 0, .inv 4 (.calloc 300 10) 0, .go 4 1 0] 0 (.free exBig) exBig .unit
    (fun s => (s.run 0).isSome) [.go 0 1 0, .go 4 1 0, .go 0 1 0, .go 0 1 0, .go 0 1 0, .go 0 1 0, .go 0 1 0, .go 0 1 0] (fun s _ => decide ((s.tl 0).errno = 12)) (by decide +kernel)
  simp only [decide_eq_true_eq] at k
  exact ⟨h0, s0, s1, h2, s2, s3, _, r, i, st, rt, k⟩

end HM
