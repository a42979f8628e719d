import Verif.Props.Content
import Verif.Props.ThreadsLayout

/-! # C62: `realloc` exposes no old data

The part of a block returned by `realloc` that was not in the old block is zero, as new blocks are. -/

namespace HM

section
variable {g : Cfg} {ro : Ro} {ar : Nat → Nat} {calm : Bool} {D : Client} {h : List Ev} {s : Sys} {t : Nat} {chs : Nat → Choice}

/-- The world at the beginning of a call has what is needed for new blocks to be zero. -/
theorem Reach.called_zeros (hg : Good ro.g ar) (r : Reach ro.g ro ar calm D h s) {c : Call} {s' : Sys} {x : Ret} (hok : c.Ok) (he : ∀ n, Env calm (chs n))
    (hc : s.call ro ar t c chs = .ok (s', x)) {n : Nat}
    (hz : ro.g.maxSlab < n ∨ ro.g.writeAfterFreeCheck = true ∨ TagsOn ro.g chs ∨ (ro.g.zeroOnFree = true ∧ ∀ h s a, D h s a → goodClient ro h s a)) :
    ∃ w w', Called ro ar calm h s t c s' x w w' ∧ Zeros ro (adjustSizeForCanary ro.g n) (w.lend t) := by
  obtain ⟨w, w', C, hcon, ht⟩ : ∃ w w', Called ro ar calm h s t c s' x w w' ∧ ((∀ h s a, D h s a → goodClient ro h s a) → Content ro w) ∧ (TagsOn ro.g chs → Tagged ro w) := by
    by_cases ht : TagsOn ro.g chs
    · obtain ⟨w, w', ⟨C, h1⟩, _, h2⟩ := r.called' hg hok he hc (some true) ht.known
      exact ⟨w, w', C, h2, fun ht => ⟨ht.1, h1⟩⟩
    · obtain ⟨w, w', C, _, h2⟩ := r.called hg hok he hc
      exact ⟨w, w', C, h2, fun h => absurd h ht⟩
  exact ⟨w, w', C, hz.imp adjust_big (Or.imp id (Or.imp ht fun ⟨h3, h4⟩ => ⟨h3, hcon h4⟩))⟩

/-- C62. Of the block `q` that `realloc(p, n)` returns for a block with `u` usable bytes, those from `u` on are zero, and if the
block was moved to a small one also those from `n` on: with the write-after-free check whatever the application has stored
anywhere, and the same if memory tagging is enabled; with zero-on-free alone if the application never stores outside of its
live blocks; for large requests in every configuration. (The bytes before these are those of the old block, see C10.) -/
theorem c62_realloc_rest (hg : Good g ar) (r : Reach g ro ar calm D h s) {p q n u v : Nat} {s' : Sys} {x : Ret}
    (hok : (Call.realloc p n).Ok) (he : ∀ n, Env calm (chs n)) (hc : s.call ro ar t (.realloc p n) chs = .ok (s', x)) (hx : x.block = some q)
    (hp : (live h p).isSome) (hu : Usable ro s.σ p u) (hv : Usable ro s'.σ q v)
    (hz : g.maxSlab < n ∨ g.writeAfterFreeCheck = true ∨ TagsOn g chs ∨ (g.zeroOnFree = true ∧ ∀ h s a, D h s a → goodClient ro h s a))
    {k : Nat} (hk : u ≤ k ∨ (q ≠ p ∧ n + 8 ≤ g.maxSlab ∧ n ≤ k)) (hkv : k < v) : s'.byte (q + k) = 0#8 := by
  obtain ⟨hro, rfl⟩ := r.roOk hg
  obtain ⟨w, w', C, hz'⟩ := r.called_zeros hg hok he hc hz
  obtain ⟨o, rfl, h3⟩ := C.res
  obtain rfl := block_retPtr hx
  rw [← C.pre.σ] at hu
  rw [← C.post.σ] at hv
  show s'.σ.vm.mem _ = _
  rw [← C.post.σ]
  have hl : (live (.call t (.realloc p n) (retPtr (some q)) :: h) q).isSome := by
    show (liveStep _ _ _).isSome
    unfold liveStep
    obtain ⟨i, hi⟩ := Option.isSome_iff_exists.mp hp
    simp only [hx, hi]
    split <;> simp
  refine ReallocPost.zero hro hok.2 h3 hz' (hv.is hro C.post.linked hl) hkv (Or.inr ⟨u, C.pre.linked.mine hp, hu.is hro C.pre.linked hp, ?_⟩)
  refine hk.imp id fun ⟨h1, h2, h4⟩ => ⟨h1, ?_, h4⟩
  have := canarySize_le ro.g
  unfold adjustSizeForCanary
  split <;> omega

/-- C62. The block that `realloc(NULL, n)` returns is zero, under the same conditions. -/
theorem c62_realloc_null (hg : Good g ar) (r : Reach g ro ar calm D h s) {q n v : Nat} {s' : Sys} {x : Ret}
    (hok : (Call.realloc 0 n).Ok) (he : ∀ n, Env calm (chs n)) (hc : s.call ro ar t (.realloc 0 n) chs = .ok (s', x)) (hx : x.block = some q)
    (hv : Usable ro s'.σ q v)
    (hz : g.maxSlab < n ∨ g.writeAfterFreeCheck = true ∨ TagsOn g chs ∨ (g.zeroOnFree = true ∧ ∀ h s a, D h s a → goodClient ro h s a))
    {k : Nat} (hkv : k < v) : s'.byte (q + k) = 0#8 := by
  obtain ⟨hro, rfl⟩ := r.roOk hg
  obtain ⟨w, w', C, hz'⟩ := r.called_zeros hg hok he hc hz
  obtain ⟨o, rfl, h3⟩ := C.res
  obtain rfl := block_retPtr hx
  rw [← C.post.σ] at hv
  show s'.σ.vm.mem _ = _
  rw [← C.post.σ]
  have hl : (live (.call t (.realloc 0 n) (retPtr (some q)) :: h) q).isSome := by
    show (liveStep _ _ _).isSome
    unfold liveStep
    simp only [hx]
    simp
  exact ReallocPost.zero hro hok.2 h3 hz' (hv.is hro C.post.linked hl) hkv (Or.inl rfl)

end

section
variable {g : Cfg} {ro : Ro} {ar : Nat → Nat} {calm : Bool} {h : List CEv} {s : CSys}

/-- C62. The same while other threads run, when the call is about to return, if the application only stores to blocks it has.
`u` is the number of usable bytes of the old block when the call began. -/
theorem c62_threads_partial (hg : Good g ar) (r : CReach g ro ar calm h s) {t p q n v : Nat} {x : Ret}
    (hc : s.run t = some (.realloc p n, .ret x)) (hx : x.block = some q) (hv : Usable ro s.σ q v)
    (hz : g.maxSlab < n ∨ g.writeAfterFreeCheck = true ∨ g.zeroOnFree = true)
    {k : Nat} (hk : p = 0 ∨ p ≠ 0 ∧ ∃ u, Usable ro (s.start t) p u ∧ (u ≤ k ∨ (q ≠ p ∧ n + 8 ≤ g.maxSlab ∧ n ≤ k))) (hkv : k < v) :
    s.σ.vm.mem (q + k) = 0#8 := by
  obtain ⟨hro, rfl⟩ := r.roOk hg
  obtain ⟨w, _, I⟩ := r.inv hg
  obtain ⟨_, d⟩ := I.done hc
  have hgv : ∃ i, (Call.realloc p n).gives ((hold h).hand t) x = some (q, i) := by
    unfold Call.gives
    simp only [hx]
    split <;> exact ⟨_, rfl⟩
  obtain ⟨i, hgv⟩ := hgv
  obtain ⟨m, _⟩ := d.gives q i hgv
  rw [← I.σ] at hv ⊢
  refine d.rest p n rfl q hx hz v ((usable_iff hro I.inv I.content (by rw [m.blk]; simp) m.eff).mp hv) k hkv ?_
  refine hk.imp id fun ⟨h0, u, h1, h2⟩ => ⟨h0, u, h1, h2.imp id fun ⟨h1, h2, h4⟩ => ⟨h1, ?_, h4⟩⟩
  have := canarySize_le ro.g
  unfold adjustSizeForCanary
  split <;> omega

end

/-! ### The hypotheses are met -/

/-- The address of the first block of 200 bytes. -/
def exC : Nat := 1855425875968

/-- In a build without quarantine a block is filled and freed; `realloc` moves a smaller block there, and what was there before
is gone. -/
example : ∃ h s, Reach (exCfg false false false) (exRo false false false) (fun t => t % 4) false anyClient h s ∧ .store (exC + 150) 7#8 ∈ h ∧
    live h exC = none ∧ live h exA = some ⟨100, none⟩ ∧ Usable (exRo false false false) s.σ exA 104 ∧
    (exCfg false false false).writeAfterFreeCheck = true ∧ ∃ chs : Nat → Choice, (∀ n, Env false (chs n)) ∧ ∃ s',
      s.call (exRo false false false) (fun t => t % 4) 0 (.realloc exA 205) chs = .ok (s', .ptr exC) ∧ Usable (exRo false false false) s'.σ exC 216 ∧
      s'.byte (exC + 103) = 8#8 ∧ 205 + 8 ≤ (exCfg false false false).maxSlab := by
  obtain ⟨h, s, h1, h2⟩ := ex_any0 (stats := false) (sealed := false) (calm := false)
    [.call 0 (.malloc 200) 0, .call 0 (.malloc 200) 0, .store (exC + 150) 7, .call 0 (.free exC) 0, .call 0 (.malloc 100) 0, .store (exA + 103) 8]
    (fun h s => (h.any fun e => match e with
        | .store x v => decide (x = exC + 150) && decide (v = 7#8)
        | _ => false) && (decide (live h exC = none) && (decide (live h exA = some ⟨100, none⟩) && (decide (usableB (exRo false false false) s.σ exA = some 104) &&
      match s.call (exRo false false false) (fun t => t % 4) 0 (.realloc exA 205) (fun _ => exAt 0) with
        | .ok (s', .ptr p) => decide (p = exC) && (decide (usableB (exRo false false false) s'.σ exC = some 216) && decide (s'.byte (exC + 103) = 8#8))
        | _ => false)))) (by decide +kernel)
  simp only [Bool.and_eq_true, List.any_eq_true, decide_eq_true_eq] at h2
  obtain ⟨⟨e, q1, q2⟩, q3, q4, q5, q6⟩ := h2
  refine ⟨h, s, h1, ?_, q3, q4, usableB_usable q5, rfl, fun _ => exAt 0, fun _ => exAt_env _ _, ?_⟩
  · split at q2
    · simp only [Bool.and_eq_true, decide_eq_true_eq] at q2
      obtain ⟨rfl, rfl⟩ := q2
      exact q1
    · cases q2
  · split at q6
    · rename_i s' p e'
      simp only [Bool.and_eq_true, decide_eq_true_eq] at q6
      obtain ⟨rfl, q7, q8⟩ := q6
      exact ⟨s', e', usableB_usable q7, q8, by decide⟩
    · cases q6

/-- The same, while thread 4 allocates in the same arena. -/
example : ∃ h s, CReach (exCfg false false false) (exRo false false false) (fun t => t % 4) false h s ∧
    (∃ c x, s.run 0 = some (c, .ret x) ∧ x.toNat = exC) ∧ (∃ h', h = .inv 0 (.realloc exA 205) exA :: .inv 4 (.malloc 100) 0 :: h') ∧
    .store (exC + 150) 7#8 ∈ h ∧ Usable (exRo false false false) (s.start 0) exA 104 ∧ Usable (exRo false false false) s.σ exC 216 := by
  have e : ((runC (exRo false false false) (fun t => t % 4)
      [.inv 0 (.malloc 200) 0, .go 0 99 0, .ret 0, .inv 0 (.malloc 200) 0, .go 0 99 0, .ret 0, .store (exC + 150) 7#8 exC, .inv 0 (.free exC) exC, .go 0 99 0,
        .ret 0, .inv 0 (.malloc 100) 0, .go 0 99 0, .ret 0, .store (exA + 103) 8#8 exA, .inv 4 (.malloc 100) 0, .go 4 1 0, .inv 0 (.realloc exA 205) exA,
        .go 0 1 0, .go 4 1 0, .go 0 99 0] [] ⟨exSt, fun _ => ⟨0, false⟩, fun _ => none, fun _ => exSt⟩).any fun x =>
      decide (x.2.phase 0 = some (some exC)) && ((match x.1 with
        | .inv 0 (.realloc p 205) q :: .inv 4 (.malloc 100) 0 :: _ => decide (p = exA) && decide (q = exA)
        | _ => false) && (x.1.any (fun e => match e with
        | .store x v => decide (x = exC + 150) && decide (v = 7#8)
        | _ => false) && (decide (usableB (exRo false false false) (x.2.start 0) exA = some 104) && decide (usableB (exRo false false false) x.2.σ exC = some 216))))) = true := by
    decide +kernel
  rw [Option.any_eq_true] at e
  obtain ⟨⟨h, s⟩, h1, h2⟩ := e
  simp only [Bool.and_eq_true, List.any_eq_true, decide_eq_true_eq] at h2
  obtain ⟨q1, q2, ⟨e, q3, q4⟩, q5, q6⟩ := h2
  refine ⟨h, s, runC_reach (.init (exInit false false false) fun _ => rfl) h1, CSys.phase_ret q1, ?_, ?_, usableB_usable q5, usableB_usable q6⟩
  · split at q2
    · simp only [Bool.and_eq_true, decide_eq_true_eq] at q2
      obtain ⟨rfl, rfl⟩ := q2
      exact ⟨_, rfl⟩
    · cases q2
  · split at q4
    · simp only [Bool.and_eq_true, decide_eq_true_eq] at q4
      obtain ⟨rfl, rfl⟩ := q4
      exact q3
    · cases q4

end HM
