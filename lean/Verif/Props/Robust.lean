import Verif.Props.Free
/-
C47. What calls can do when the application has memory errors of any kind.
-/
namespace HM

variable {g : Cfg} {ro : Ro} {ar : Nat → Nat} {calm : Bool} {D : Client} {h : List Ev} {s : Sys} {t : Nat} {chs : Nat → Choice}

theorem getMetadata_ends (g : Cfg) (base cls p : Nat) (c : SC) : getMetadata g base cls p c ≠ .hang ∧ getMetadata g base cls p c ≠ .segv := by
  unfold getMetadata
  simp only
  split <;> simp

theorem objectOffset_ends (g : Cfg) (base cls p : Nat) (c : SC) : objectOffset g base cls p c ≠ .hang ∧ objectOffset g base cls p c ≠ .segv := by
  unfold objectOffset
  have := getMetadata_ends g base cls p c
  cases e : getMetadata g base cls p c with
  | ok m =>
    simp only [Res.bind_ok]
    split
    · simp
    · split
      · simp
      · split <;> simp
  | fatal m => exact ⟨nofun, nofun⟩
  | segv => exact absurd e this.2
  | ub m => exact ⟨nofun, nofun⟩
  | hang => exact absurd e this.1

/-- `malloc_object_size` of a pointer into the slab area never loops and never faults. -/
theorem objectSize_ends {p : Nat} (h : ro.inSlab p = true) (s : Sys) :
    s.call ro ar t (.objectSize p) chs ≠ .hang ∧ s.call ro ar t (.objectSize p) chs ≠ .segv := by
  unfold Sys.call
  simp only [Call.prog, hObjectSize, h, if_true]
  by_cases h0 : p = 0
  · rw [if_pos h0]
    exact ⟨nofun, nofun⟩
  · rw [if_neg h0]
    simp only [unsealMeta, sealMeta, smallOffset, critical, Prog.one, bind, Prog.bind, pure, Prog.run]
    have := objectOffset_ends ro.g (ro.regionStart (ro.sizeClassOf p).1 (ro.sizeClassOf p).2) (ro.sizeClassOf p).2 p
      (s.σ.sc (ro.sizeClassOf p).1 (ro.sizeClassOf p).2)
    simp only [Bool.not_true, Bool.and_false, Bool.false_eq_true, if_false]
    by_cases hb : nClasses ro.g ≤ (ro.sizeClassOf p).2 ∨ ro.g.nArena ≤ (ro.sizeClassOf p).1
    · rw [if_pos hb]
      exact ⟨nofun, nofun⟩
    · rw [if_neg hb]
      cases e : objectOffset ro.g (ro.regionStart (ro.sizeClassOf p).1 (ro.sizeClassOf p).2) (ro.sizeClassOf p).2 p
          (s.σ.sc (ro.sizeClassOf p).1 (ro.sizeClassOf p).2) with
      | ok n => exact ⟨nofun, nofun⟩
      | fatal m => exact ⟨nofun, nofun⟩
      | ub m => exact ⟨nofun, nofun⟩
      | segv => exact absurd e this.2
      | hang => exact absurd e this.1

/-- C47. Whatever the application did before — stores to any address it can write, double and invalid frees, any pointer
passed to any function — and whatever error the kernel returns, a call returns or aborts the process with the allocator's
error message, with three exceptions: `realloc` of a pointer that is not a live block may also end in a memory fault;
`realloc` of a live block of small size and alignment above the page size (C11), and `malloc_object_size` of a pointer into
the area of zero-size blocks (C27), may have undefined behaviour. No call loops forever. -/
theorem c47_outcomes (hg : Good g ar) (r : Reach g ro ar calm D h s) {c : Call} (hok : c.Ok) (he : ∀ n, Env calm (chs n)) :
    match s.call ro ar t c chs with
    | .ok _ => True
    | .fatal _ => True
    | .segv => ∃ p n, c = .realloc p n ∧ p ≠ 0 ∧ live h p = none
    | .ub _ => (∃ p n i, c = .realloc p n ∧ live h p = some i ∧ OverAligned g i) ∨
        ∃ p, c = .objectSize p ∧ ro.inSlab p = true ∧ (ro.sizeClassOf p).2 = 0
    | .hang => False := by
  obtain ⟨hro, rfl⟩ := r.roOk hg
  obtain ⟨w, f, _, _, h1⟩ := r.spec (c := c) hg t hok he
  have l := f.linked
  cases hx : s.call ro ar t c chs with
  | ok x => trivial
  | fatal m => trivial
  | segv =>
    rw [hx] at h1
    obtain ⟨n, w1, _, ⟨p, rfl, h2, h3⟩ | ⟨p, n, rfl, h0, h2⟩⟩ := h1
    · exact absurd hx (objectSize_ends h2 s).2
    · exact ⟨p, n, rfl, h0, (lend_nobody l t p).mp h2⟩
  | ub m =>
    rw [hx] at h1
    obtain ⟨n, w1, _, h2 | ⟨p, n, z, gd, rfl, h2, h3⟩⟩ := h1
    · exact Or.inr h2
    · have hl : (live h p).isSome = true := UsableIs.live hro l (Or.inr ⟨gd, h2⟩)
      obtain ⟨i, hi⟩ := Option.isSome_iff_exists.mp hl
      refine Or.inl ⟨p, n, i, rfl, hi, ?_⟩
      by_contra ho
      have := good_realloc hro l hi ho (h2 : w.σ.rt.Has _)
      omega
  | hang =>
    rw [hx] at h1
    obtain ⟨n, w1, _, p, rfl, h2, h3⟩ := h1
    exact absurd hx (objectSize_ends h2 s).1

/-- Consequence of C47 for the deallocation functions and the ones that take no pointer: whatever happened before, they
return or abort with an error message. -/
theorem c47_no_fault (hg : Good g ar) (r : Reach g ro ar calm D h s) {c : Call} (hok : c.Ok) (he : ∀ n, Env calm (chs n))
    (hr : ∀ p n, c ≠ .realloc p n) (ho : ∀ p, c ≠ .objectSize p) :
    (∃ s' x, s.call ro ar t c chs = .ok (s', x)) ∨ ∃ m, s.call ro ar t c chs = .fatal m := by
  have h1 := c47_outcomes (t := t) hg r hok he
  cases hx : s.call ro ar t c chs with
  | ok x => exact Or.inl ⟨x.1, x.2, rfl⟩
  | fatal m => exact Or.inr ⟨m, rfl⟩
  | segv =>
    rw [hx] at h1
    obtain ⟨p, n, e, _⟩ := h1
    exact absurd e (hr p n)
  | ub m =>
    rw [hx] at h1
    rcases h1 with ⟨p, n, i, e, _⟩ | ⟨p, e, _⟩
    · exact absurd e (hr p n)
    · exact absurd e (ho p)
  | hang => rw [hx] at h1; exact h1.elim

/-- A program with memory errors: it stores into a freed block. The next call frees an address inside of a block. -/
example : ∃ h s, Reach (exCfg true true) (exRo true true) (fun t => t % 4) false anyClient h s ∧
    ∃ t p, p ≠ 0 ∧ live h p = none ∧ ∃ m, s.call (exRo true true) (fun t => t % 4) t (.free p) (fun _ => Choice.quiet) = .fatal m := by
  obtain ⟨h, s, h1, h2⟩ := ex_any (stats := true) (sealed := true) (calm := false)
    [.call 0 (.malloc 100) 0, .store exA 3, .call 0 (.calloc 3 100000) exMapAt, .call 0 (.free exA) 0, .store exA 5, .call 0 (.malloc 40000) exMapAt,
     .call 2 (.malloc 100) 0]
    (fun h s => live h (exA + 16) = none ∧ (match s.call (exRo true true) (fun t => t % 4) 0 (.free (exA + 16)) (fun _ => Choice.quiet) with
      | .fatal _ => true | _ => false) = true)
    (by decide +kernel)
  replace h2 := of_decide_eq_true h2
  refine ⟨h, s, h1, 0, exA + 16, by decide, h2.1, ?_⟩
  have := h2.2
  cases e : s.call (exRo true true) (fun t => t % 4) 0 (.free (exA + 16)) (fun _ => Choice.quiet) with
  | fatal m => exact ⟨m, rfl⟩
  | _ => rw [e] at this; cases this

end HM
