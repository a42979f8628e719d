import Verif.LinkReach
/-
Facts about live blocks in reachable states, used by the property theorems.
-/
namespace HM

/-! ### What an application can observe -/

/-- A read or write of byte `x` by the application does not fault. -/
def Sys.access (s : Sys) (x : Nat) : Prop := s.σ.vm.prot (x / 4096) = .rw

/-- The byte at address `x`. -/
def Sys.byte (s : Sys) (x : Nat) : BitVec 8 := s.σ.vm.mem x

/-- Byte `x` is in no mapping that can be read or written, but the address is reserved by the allocator. -/
def Sys.guarded (s : Sys) (x : Nat) : Prop := s.σ.vm.prot (x / 4096) = .none

/-! ### Facts -/

variable {ro : Ro} {t : Nat} {L : Nat → Option Info} {w : World}

theorem Linked.effSize (l : Linked ro L w) (r : RegionMeta) : w.G.effSize r = r.size := by
  unfold Gh.effSize; rw [l.eff]; rfl

theorem usable_le (ro : Ro) (c : Nat) : (if ro.g.classSize c = 0 then 0 else ro.g.usable c) + ro.g.canarySize ≤ ro.g.slotSize c ∨ ¬ c < nClasses ro.g := by
  by_cases hc : c < nClasses ro.g
  · left
    have h1 := (classGeo ro.g hc).size_ge
    have h2 := canarySize_le ro.g
    split
    · omega
    · show ro.g.slotSize c - ro.g.canarySize + _ ≤ _; omega
  · exact Or.inr hc

theorem SizeKind.usable {p s : Nat} (hi : GInv ro w) (hs : s < W64) (h : SizeKind ro w p s) : ∃ u, UsableIs ro w p u ∧ ro.g.payload s ≤ u := by
  rcases h with ⟨h, a, i, k, h1⟩ | ⟨h, g, h1⟩
  · refine ⟨_, Or.inl ⟨a, _, i, k, h1, rfl⟩, ?_⟩
    have h2 := le_classSize h
    unfold Cfg.payload
    by_cases hz : ro.g.classSize (ro.g.clsOf s) = 0
    · rw [if_pos hz]; split <;> omega
    · rw [if_neg hz]
      show _ ≤ ro.g.slotSize _ - _
      unfold Cfg.slotSize
      rw [if_neg hz]; split <;> omega
  · refine ⟨_, Or.inr ⟨g, h1⟩, ?_⟩
    have h2 := (hi.reg _ h1).size
    have h3 := (getLargeSizeClass_ok ro.g hs (by simp only at h2; omega)).1
    unfold Cfg.payload
    split <;> omega

theorem payload_ge {g : Cfg} {n s : Nat} (h : adjustSizeForCanary g n ≤ s) (h1 : g.maxSlab < adjustSizeForCanary g n → s = adjustSizeForCanary g n) :
    n ≤ g.payload s := by
  have h2 := le_payload g n
  refine Nat.le_trans h2 ?_
  unfold Cfg.payload
  by_cases k : g.maxSlab < adjustSizeForCanary g n
  · rw [h1 k]
  · by_cases k1 : 0 < adjustSizeForCanary g n
    · rw [if_pos ⟨k1, by omega⟩]; split <;> omega
    · rw [if_neg (fun x => k1 x.1)]
      omega

theorem Sized.usable {p : Nat} {i : Info} (hi : GInv ro w) (h : Sized ro w p i) : ∃ u, UsableIs ro w p u ∧ i.size ≤ u := by
  obtain ⟨h0, h⟩ := h
  cases e : i.align with
  | none =>
    rw [e] at h
    obtain ⟨u, h1, h2⟩ := SizeKind.usable hi (adjust_lt h0) h
    exact ⟨u, h1, Nat.le_trans (le_payload _ _) h2⟩
  | some al =>
    rw [e] at h
    obtain ⟨_, _, ⟨s, h1, h2, h3, _, h4⟩ | ⟨_, _, s, g, h1, h2⟩⟩ := h
    · obtain ⟨u, q1, q2⟩ := SizeKind.usable hi h2 h4
      exact ⟨u, q1, Nat.le_trans (payload_ge h1 h3) q2⟩
    · refine ⟨s, Or.inr ⟨g, h1⟩, Nat.le_trans ?_ h2⟩
      unfold adjustSizeForCanary; split <;> omega

theorem Linked.usable (l : Linked ro L w) {p : Nat} {i : Info} (h : L p = some i) : ∃ u, UsableIs ro w p u ∧ i.size ≤ u :=
  (l.sized p i h).usable l.inv

theorem UsableIs.live (hro : RoOk ro) (l : Linked ro L w) {p u : Nat} (h : UsableIs ro w p u) : (L p).isSome = true := by
  rw [← l.blk p, l.inv.blk p]
  rcases h with ⟨a, c, i, k, h, _⟩ | ⟨g, h⟩
  · exact Or.inl ⟨a, c, i, k, h⟩
  · exact Or.inr ⟨u, g, h⟩

theorem UsableIs.byte (hro : RoOk ro) (l : Linked ro L w) {p u x : Nat} (h : UsableIs ro w p u) (h1 : p ≤ x) (h2 : x < p + u) : UserByte ro w p x := by
  have m := l.mine (t := 0) (h.live hro l)
  exact UsableIs.user (w := w.lend 0) (t := 0) m h (by unfold inRange; omega)

theorem UsableIs.rw (hro : RoOk ro) (l : Linked ro L w) {p u x : Nat} (h : UsableIs ro w p u) (h1 : p ≤ x) (h2 : x < p + u) :
    w.σ.vm.prot (x / PAGE) = .rw := (h.byte hro l h1 h2).rw hro l.inv

/-- The bytes set aside for a block: they are those of a slot, or belong to the pages of a region. -/
theorem effSize_eq {r : RegionMeta} (h : w.G.eff r.p = none) : w.G.effSize r = r.size := by
  unfold Gh.effSize; rw [h]; rfl

theorem UsableIs.extent_of {p u x : Nat} (hi : GInv ro w) (he : w.G.eff p = none) (h : UsableIs ro w p u) (h1 : p ≤ x) (h2 : x < p + u + ro.g.canarySize) :
    (∃ a c i k, IsSmall ro w.σ p a c i k ∧ inRange p (ro.g.slotSize c) x) ∨ w.G.own (x / PAGE) = .reg p := by
  rcases h with ⟨a, c, i, k, h, rfl⟩ | ⟨g, h⟩
  · refine Or.inl ⟨a, c, i, k, h, ?_⟩
    have := (usable_le ro c).resolve_right (not_not.mpr h.2.1)
    unfold inRange; omega
  · right
    refine (hi.regOwn _ p).mpr ⟨_, h, rfl, ?_⟩
    rw [effSize_eq he]
    have R := hi.reg _ h
    have h3 := R.pmod
    have h4 := R.gmod
    have h5 := R.gpos
    have h6 := R.lo
    have h7 := canarySize_le ro.g
    have h8 := pageUp_le_iff (n := u)
    have h9 := pageUp_mod u
    simp only at h3 h4 h5 h6 ⊢
    generalize pageUp u = U at *
    unfold inPages
    omega

theorem UsableIs.extent (_hro : RoOk ro) (l : Linked ro L w) {p u x : Nat} (h : UsableIs ro w p u) (h1 : p ≤ x) (h2 : x < p + u + ro.g.canarySize) :
    (∃ a c i k, IsSmall ro w.σ p a c i k ∧ inRange p (ro.g.slotSize c) x) ∨ w.G.own (x / PAGE) = .reg p :=
  h.extent_of l.inv (l.eff p) h1 h2

theorem UsableIs.disjoint (hro : RoOk ro) (l : Linked ro L w) {p q u v x : Nat} (hp : UsableIs ro w p u) (hq : UsableIs ro w q v)
    (h1 : p ≤ x) (h2 : x < p + u + ro.g.canarySize) (h3 : q ≤ x) (h4 : x < q + v + ro.g.canarySize) : p = q := by
  rcases hp.extent hro l h1 h2 with ⟨a, c, i, k, k1, k2⟩ | k1 <;> rcases hq.extent hro l h3 h4 with ⟨a', c', i', k', k3, k4⟩ | k3
  · exact (k1.disjoint hro l.inv k3 k2 k4).1
  · rw [k1.own hro l.inv k2] at k3; exact absurd k3 (by simp)
  · rw [k3.own hro l.inv k4] at k1; exact absurd k1 (by simp)
  · rw [k1] at k3; injection k3

theorem UsableIs.pos (hro : RoOk ro) (l : Linked ro L w) {p u : Nat} (h : UsableIs ro w p u) : p ≠ 0 :=
  mine_ne_zero (t := 0) hro (l.ready 0).inv (l.mine (t := 0) (h.live hro l))

/-- The usable size reported for a live block is the one the invariant speaks of. -/
theorem Usable.is (hro : RoOk ro) (l : Linked ro L w) {p u : Nat} (hp : (L p).isSome = true) (h : Usable ro w.σ p u) : UsableIs ro w p u := by
  rcases usable_sound hro l h with ⟨rfl, rfl⟩ | ⟨_, _, h, _⟩
  · have := mine_ne_zero (t := 0) hro (l.ready 0).inv (l.mine (t := 0) hp); exact absurd rfl this
  · exact h

theorem UsableIs.align16 (hro : RoOk ro) (l : Linked ro L w) {p u : Nat} (h : UsableIs ro w p u) : p % 16 = 0 := by
  rcases h with ⟨a, c, i, k, ⟨ha, hc, rfl, _⟩, _⟩ | ⟨g, h⟩
  · exact Nat.mod_eq_zero_of_dvd (slot_dvd hro ha hc (by decide) (Nat.dvd_of_mod_eq_zero (classGeo ro.g hc).size_mod))
  · have := (l.inv.reg _ h).pmod
    simp only at this; omega

/-- A block kept by a step keeps its usable size and its contents. -/
theorem KeepB.bytes (hro : RoOk ro) (l : Linked ro L w) {w' : World} {p u x : Nat} (k : KeepB ro w w' p) (h : UsableIs ro w p u)
    (h1 : p ≤ x) (h2 : x < p + u) : w'.σ.vm.mem x = w.σ.vm.mem x := by
  rcases h with ⟨a, c, i, j, h, rfl⟩ | ⟨g, h⟩
  · have := (usable_le ro c).resolve_right (not_not.mpr h.2.1)
    exact (k.small _ _ _ _ h).2.2 x (by unfold inRange; omega)
  · refine (k.large _ _ h).2.2 x ?_
    rw [l.effSize]
    have := pageUp_le_iff (n := u)
    unfold inRange; simp only; omega

/-! ### Calls in reachable states -/

/-- The call hands block `p` over to the allocator. -/
def Call.hands (c : Call) (p : Nat) : Prop := c = .free p ∨ (∃ n, c = .freeSized p n) ∨ ∃ n, c = .realloc p n

section
variable {g : Cfg} {ar : Nat → Nat} {calm : Bool} {D : Client} {h : List Ev} {s s' : Sys} {c : Call} {chs : Nat → Choice} {x : Ret}

theorem touched_hands {q : Nat} (h : (Ev.call t c x).touched = some q) : c.hands q := by
  unfold Ev.touched at h
  split at h
  · rename_i e; cases e; split at h <;> cases h; exact Or.inl rfl
  · rename_i e; cases e; split at h <;> cases h; exact Or.inr (Or.inl ⟨_, rfl⟩)
  · rename_i e; cases e; split at h <;> cases h; exact Or.inr (Or.inr ⟨_, rfl⟩)
  · cases h

/-- What a call does in a reachable state. The pages of others are labelled as held by a thread other than `t`. -/
theorem Reach.spec' (hg : Good g ar) (r : Reach g ro ar calm D h s) (t : Nat) (hok : c.Ok) (he : ∀ n, Env calm (chs n)) (tg : Option Bool := none)
    (ht : ∀ n b, tg = some b → (chs n).memtag = b := by exact fun _ _ e => nomatch e) :
    ∃ w, (Fits ro calm h s w ∧ w.G.tags = tg) ∧ w.G.untracked ≤ total (evUntr ro) h ∧ ((∀ h s a, D h s a → goodClient ro h s a) → Content ro w) ∧
      CallSpec ro ar (live h) w s t c chs (s.call ro ar t c chs) ∧ ∀ pg, foreign h pg = true → w.G.own pg = .held (t + 1) := by
  obtain ⟨hro, eg⟩ := r.roOk hg
  obtain ⟨w0, f0, h1, h2⟩ := r.fits hg
  have f0 := f0.setTags tg
  have f := f0.hold hro (t + 1)
  refine ⟨(w0.setTags tg).hold h (t + 1), ⟨f, rfl⟩, h1, fun hD => (f0.outside (t + 1)).content hro f0.linked.inv (w := w0.setTags tg) (h2 hD), Sys.call_spec hro f.linked f.σ (f.tl t) (by rw [eg]; exact hg.arena t) hok (fun n => ?_) ht, fun pg hp => if_pos hp⟩
  rw [f.calm]; exact he n

theorem Reach.spec (hg : Good g ar) (r : Reach g ro ar calm D h s) (t : Nat) (hok : c.Ok) (he : ∀ n, Env calm (chs n)) :
    ∃ w, Fits ro calm h s w ∧ w.G.untracked ≤ total (evUntr ro) h ∧ ((∀ h s a, D h s a → goodClient ro h s a) → Content ro w) ∧
      CallSpec ro ar (live h) w s t c chs (s.call ro ar t c chs) := by
  obtain ⟨w, ⟨h1, _⟩, h2, h3, h4, _⟩ := r.spec' hg t hok he
  exact ⟨w, h1, h2, h3, h4⟩

/-- What a call that returns has done in a reachable state. -/
structure Called (ro : Ro) (ar : Nat → Nat) (calm : Bool) (h : List Ev) (s : Sys) (t : Nat) (c : Call) (s' : Sys) (x : Ret) (w w' : World) : Prop where
  pre : Fits ro calm h s w
  post : Fits ro calm (.call t c x :: h) s' w'
  guar : Guar ro t (w.lend t) w'
  res : CallPost ro t (ar t) c (w.lend t) (s.tl t) x (s'.tl t) w'
  keep : ∀ q, (live h q).isSome = true → ¬ c.hands q → KeepB ro (w.lend t) w' q
  others : ∀ u, u ≠ t → s'.tl u = s.tl u
  next : Next ro (.call t c x) w w'
  opened : ∀ a k i, (w'.G.loc a k i).isRw = true → (w.G.loc a k i).isRw = true ∨ ∃ j, j < ro.g.slots k ∧
    (w.G.blk (slotAddr ro.g (ro.regionStart a k) k i j) ≠ .nobody ∨
      (w.G.blk (slotAddr ro.g (ro.regionStart a k) k i j) = .nobody ∧ (live (.call t c x :: h) (slotAddr ro.g (ro.regionStart a k) k i j)).isSome = true))
  pages : ∀ pg, foreign h pg = true → s'.σ.vm.prot pg = s.σ.vm.prot pg ∧ ∀ x, x / PAGE = pg → s'.σ.vm.mem x = s.σ.vm.mem x

theorem Reach.called' (hg : Good g ar) (r : Reach g ro ar calm D h s) (hok : c.Ok) (he : ∀ n, Env calm (chs n))
    (hc : s.call ro ar t c chs = .ok (s', x)) (tg : Option Bool := none) (ht : ∀ n b, tg = some b → (chs n).memtag = b := by exact fun _ _ e => nomatch e) :
      ∃ w w', (Called ro ar calm h s t c s' x w w' ∧ w.G.tags = tg) ∧ w.G.untracked ≤ total (evUntr ro) h ∧ ((∀ h s a, D h s a → goodClient ro h s a) → Content ro w) := by
  obtain ⟨w, ⟨f, htg⟩, h1, h2, h3, hh⟩ := r.spec' hg t hok he tg ht
  rw [hc] at h3
  obtain ⟨w', q1, q2, q3, ⟨q4, A, q5, q6⟩, q7, q8⟩ := h3
  have ho := f.call_others q1 hh q2
  refine ⟨w, w', ⟨⟨f, ⟨q1, q4, (q6.calm.trans rfl).trans f.calm, fun u => ?_, ho.1⟩, q2, q3, fun q hq hn => ?_, q8,
    ⟨(lend_delay w).trans q2.delay, q6.frees rfl, q6.pushes rfl, q6.untr rfl⟩, fun a k i hi => ?_, ho.2⟩, htg⟩, h1, h2⟩
  · by_cases e : u = t
    · rw [e]; exact q7
    · rw [q8 u e]; exact f.tl u
  · have m := (f.linked.mine (t := t) hq).blk
    exact q6.keep q (fun hA => (q5 q hA).elim (fun k => k.1 m) fun k => hn (touched_hands k.1)) m
  · refine (q6.opened rfl a k i hi).imp_right fun ⟨j, k1, k2⟩ => ⟨j, k1, ?_⟩
    rcases q5 _ k2 with ⟨k3, k4⟩ | ⟨_, k3⟩
    · refine Or.inr ⟨?_, ?_⟩
      · by_contra hb
        exact k3 (if_neg hb)
      · exact (q4.blk _).mp (by rw [k4]; simp)
    · exact Or.inl fun e => by rw [(lend_blk w _).mpr e] at k3; cases k3

theorem Reach.called (hg : Good g ar) (r : Reach g ro ar calm D h s) (hok : c.Ok) (he : ∀ n, Env calm (chs n))
    (hc : s.call ro ar t c chs = .ok (s', x)) : ∃ w w', Called ro ar calm h s t c s' x w w' ∧
      w.G.untracked ≤ total (evUntr ro) h ∧ ((∀ h s a, D h s a → goodClient ro h s a) → Content ro w) := by
  obtain ⟨w, w', ⟨h1, _⟩, h2, h3⟩ := r.called' hg hok he hc
  exact ⟨w, w', h1, h2, h3⟩

/-- Memory tagging is not compiled in, or disabled during the call. -/
def TagsOff (g : Cfg) (chs : Nat → Choice) : Prop := g.memtag = false ∨ ∀ n, (chs n).memtag = false

/-- Memory tagging is compiled in, and enabled during the call. -/
def TagsOn (g : Cfg) (chs : Nat → Choice) : Prop := g.memtag = true ∧ ∀ n, (chs n).memtag = true

/-- The mode that is known. -/
theorem TagsOff.known (h : TagsOff ro.g chs) : ∃ tg : Option Bool, (∀ n b, tg = some b → (chs n).memtag = b) ∧ ∀ w : World, w.G.tags = tg → Untagged ro w := by
  rcases h with h | h
  · exact ⟨none, (fun _ _ e => nomatch e), fun _ _ => Or.inl h⟩
  · exact ⟨some false, fun n b e => by cases e; exact h n, fun _ e => Or.inr e⟩

theorem TagsOn.known (h : TagsOn ro.g chs) : ∀ n b, some true = some b → (chs n).memtag = b := fun n b e => by cases e; exact h.2 n

theorem Steps.reach {evs h0 : List Ev} {s0 : Sys} (r : Reach g ro ar calm D h0 s0) (st : Steps ro ar calm D h0 s0 evs s) :
    Reach g ro ar calm D (evs ++ h0) s := by
  induction st with
  | refl => exact r
  | step _ ha hd hs ih => exact .step ih ha hd hs
  | other _ pg pr data hp ih => exact .other ih pg pr data hp

end

/-! ### New blocks -/

/-- `p` is a block that was not in use before, with an intact canary. -/
structure Fresh (ro : Ro) (t : Nat) (w : World) (p : Nat) (w' : World) : Prop where
  old : w.G.blk p ≠ .thr t
  canary : ¬ CanaryBad ro w' p

theorem Got.fresh (hro : RoOk ro) {a s p : Nat} {w' : World} (g : Got .seq ro t a s w p w') : Fresh ro t w p w' := by
  rcases g with ⟨_, n⟩ | ⟨_, n⟩
  · obtain ⟨i, k, h1, h2⟩ := n.small
    exact ⟨n.old, h2.notBad hro n.at_.inv h1⟩
  · obtain ⟨g, h1⟩ := n.has
    exact ⟨n.old, Has.notBad hro n.at_.inv h1⟩

theorem GotZero.fresh (hro : RoOk ro) {a n p : Nat} {w' : World} (g : GotZero .seq ro t a n w p w') : Fresh ro t w p w' := by
  refine ⟨g.got.old, ?_⟩
  rcases g.kind with ⟨_, i, k, h1, h2⟩ | ⟨_, gd, h1⟩
  · exact h2.notBad hro g.got.at_.inv h1
  · exact Has.notBad hro g.got.at_.inv h1

theorem GotAl.fresh (hro : RoOk ro) {a al s p : Nat} {w' : World} (g : GotAl .seq ro t a al s w p w') : Fresh ro t w p w' := by
  rcases g.2 with ⟨_, s', _, _, _, _, h⟩ | ⟨_, n⟩
  · exact h.fresh hro
  · obtain ⟨g, h1⟩ := n.has
    exact ⟨n.old, Has.notBad hro n.at_.inv h1⟩

theorem block_retPtr {o : Option Nat} {p : Nat} (h : (retPtr o).block = some p) : o = some p := by
  cases o with
  | none => cases h
  | some q =>
    unfold retPtr Ret.block at h
    simp only [Option.getD_some] at h
    split at h
    · cases h
    · cases h; rfl

/-- The result of an allocation call other than `realloc`. -/
theorem CallPost.fresh (hro : RoOk ro) {a : Nat} {c : Call} {tl tl' : Tl} {x : Ret} {w' : World} {i : Info} {p : Nat}
    (h : CallPost ro t a c w tl x tl' w') (hr : c.request = some i) (hx : x.block = some p) : Fresh ro t w p w' := by
  cases c with
  | malloc n =>
    obtain ⟨o, rfl, h⟩ := h
    obtain rfl := block_retPtr hx
    exact Got.fresh hro h
  | calloc n k =>
    obtain ⟨o, rfl, h⟩ := h
    obtain rfl := block_retPtr hx
    exact GotZero.fresh hro h.2
  | posixMemalign al n =>
    obtain ⟨o, rfl, h⟩ := h
    cases o with
    | error e => cases hx
    | ok q => cases hx; exact GotAl.fresh hro h.2.2
  | alignedAlloc al n =>
    obtain ⟨o, rfl, h⟩ := h
    obtain rfl := block_retPtr hx
    exact GotAl.fresh hro h.2.2
  | valloc n =>
    obtain ⟨o, rfl, h⟩ := h
    obtain rfl := block_retPtr hx
    exact GotAl.fresh hro h.2.2
  | pvalloc n =>
    obtain ⟨o, rfl, h⟩ := h
    obtain rfl := block_retPtr hx
    rcases h with ⟨_, h, _⟩ | ⟨_, h⟩
    · cases h
    · exact GotAl.fresh hro h.2.2
  | _ => cases hr

theorem liveStep_request {c : Call} {x : Ret} {i : Info} {p : Nat} (hr : c.request = some i) (hx : x.block = some p) (q : Nat) :
    liveStep L (.call t c x) q = if q = p then some i else L q := by
  cases c <;> first | (cases hr; done) | (simp only [liveStep, hr, hx])

/-! ### The contents of new blocks -/

section
variable {ro : Ro}

theorem NewLarge.zero_usable {m : Mode} {t : Nat} {w w' : World} {p u size un : Nat} {ok : Nat → Prop} (hro : RoOk ro) (n : NewLarge m ro t size ok un w p w') (hu : UsableIs ro w' p u)
    {y : Nat} (h1 : p ≤ y) (h2 : y < p + u) : w'.σ.vm.mem y = 0#8 := by
  obtain ⟨gd, h3⟩ := n.has
  have := hu.uniq hro n.at_.inv (Or.inr ⟨gd, h3⟩)
  have h4 := pageUp_le_iff (n := size)
  exact n.zero y (by unfold inRange; omega)

theorem Got.zero_usable {m : Mode} {t : Nat} {w w' : World} {p u n a : Nat} (hro : RoOk ro) (h : Got m ro t a n w p w') (hu : UsableIs ro w' p u)
    (hz : ro.g.maxSlab < n ∨ ro.g.writeAfterFreeCheck = true ∨ Tagged ro w ∨ (ro.g.zeroOnFree = true ∧ Content ro w)) {y : Nat} (h1 : p ≤ y) (h2 : y < p + u) : w'.σ.vm.mem y = 0#8 := by
  rcases h with ⟨h3, h⟩ | ⟨_, h⟩
  · obtain ⟨i, k, h4, _⟩ := h.small
    have := hu.uniq hro h.at_.inv (Or.inl ⟨a, _, i, k, h4, rfl⟩)
    by_cases hc : ro.g.classSize (ro.g.clsOf n) = 0
    · rw [if_pos hc] at this; omega
    · rw [if_neg hc] at this
      exact h.zero hc (hz.resolve_left (by omega)) y (by unfold inRange; omega)
  · exact h.zero_usable hro hu h1 h2

theorem GotAl.zero_usable {m : Mode} {t : Nat} {w w' : World} {p u al n a : Nat} (hro : RoOk ro) (h : GotAl m ro t a al n w p w') (hu : UsableIs ro w' p u)
    (hz : ro.g.maxSlab < n ∨ ro.g.writeAfterFreeCheck = true ∨ Tagged ro w ∨ (ro.g.zeroOnFree = true ∧ Content ro w)) {y : Nat} (h1 : p ≤ y) (h2 : y < p + u) : w'.σ.vm.mem y = 0#8 := by
  rcases h.2 with ⟨_, n', _, _, h3, _, h4⟩ | ⟨_, h4⟩
  · refine h4.zero_usable hro hu (hz.imp (fun h5 => ?_) id) h1 h2
    rw [h3 h5]; exact h5
  · exact h4.zero_usable hro hu h1 h2

theorem adjust_big {g : Cfg} {n : Nat} (h : g.maxSlab < n) : g.maxSlab < adjustSizeForCanary g n := by
  unfold adjustSizeForCanary; split <;> omega

end

end HM
