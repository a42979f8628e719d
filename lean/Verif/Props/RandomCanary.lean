import Verif.Props.RandomGuards

/-! Random canaries (C70): the canaries of small blocks from any of the functions that allocate. -/

namespace HM

/-- What holds after every run of a program in which all choices satisfy `R`. -/
def Prog.EndsIf {α : Type} (R : Choice → Prop) (P : Prog α) (σ : St) (tl : Tl) (Q : St → Tl → α → Prop) : Prop :=
  ∀ chs σ' tl' a, (∀ j, R (chs j)) → P.run chs σ tl = .ok (σ', tl', a) → Q σ' tl' a

section
variable {α β : Type} {R : Choice → Prop} {σ : St} {tl : Tl}

theorem Prog.EndsIf.ret {a : α} {Q : St → Tl → α → Prop} (h : Q σ tl a) : (Prog.ret a).EndsIf R σ tl Q := by
  intro chs σ' tl' b _ e; cases e; exact h

theorem Prog.EndsIf.act {l : Option Sect} {f : Choice → St → Tl → Res (St × Tl × β)} {k : β → Prog α} {Q : St → Tl → α → Prop}
    (h : ∀ ch σ' tl' b, R ch → f ch σ tl = .ok (σ', tl', b) → (k b).EndsIf R σ' tl' Q) : (Prog.act (l := l) f k).EndsIf R σ tl Q := by
  intro chs σ' tl' a hr e
  unfold Prog.run at e
  split at e <;> try cases e
  rename_i h1
  exact h _ _ _ _ (hr 0) h1 (fun n => chs (n + 1)) _ _ _ (fun j => hr (j + 1)) e

theorem Prog.EndsIf.bind (hR : ∃ ch, R ch) {P : Prog α} {k : α → Prog β} {Q : St → Tl → β → Prop}
    (h : P.EndsIf R σ tl fun σ tl a => (k a).EndsIf R σ tl Q) : (P >>= k).EndsIf R σ tl Q := by
  show (P.bind k).EndsIf R σ tl Q
  obtain ⟨ch0, h0⟩ := hR
  induction P generalizing σ tl with
  | ret a => exact h (fun _ => ch0) σ tl a (fun _ => h0) rfl
  | act f k' ih =>
    refine Prog.EndsIf.act fun ch σ' tl' b hv hf => ih b fun chs σ2 tl2 a hr e => ?_
    refine h (fun n => match n with | 0 => ch | n + 1 => chs n) σ2 tl2 a (fun j => ?_) ?_
    · cases j with
      | zero => exact hv
      | succ j => exact hr j
    · unfold Prog.run
      simp only [hf]
      exact e

theorem Prog.EndsIf.weaken {P : Prog α} {Q Q' : St → Tl → α → Prop} (h : P.EndsIf R σ tl Q) (hq : ∀ σ tl a, Q σ tl a → Q' σ tl a) :
    P.EndsIf R σ tl Q' := fun chs σ' tl' a hr e => hq _ _ _ (h chs σ' tl' a hr e)

theorem critical_endsIf {ro : Ro} {l : Sect} {f : Choice → St → Errno → Res (St × Errno × β)} {Q : St → Tl → β → Prop}
    (h : ∀ ch σ' e' b, R ch → f ch σ tl.errno = .ok (σ', e', b) → ∀ tl', Q σ' tl' b) : (critical ro l f).EndsIf R σ tl Q := by
  refine Prog.EndsIf.act fun ch σ' tl' b hv hf => Prog.EndsIf.ret ?_
  split at hf
  · cases hf
  · split at hf <;> cases hf
    rename_i h1
    exact h ch _ _ _ hv h1 _
end

/-- `p` is recorded as a large block, or it is a small block in a slab that was in use or cached before, or else in a slab with the canary drawn. -/
def Took (ro : Ro) (v : BitVec 64) (σ σ' : St) (p : Nat) : Prop :=
  (∃ i size gd, σ'.rt.tab i = ⟨p, size, gd⟩) ∨
  ∃ a c m k, IsSmall ro σ' p a c m k ∧ ((σ.sc a c).partialHead = some m ∨ (σ.sc a c).emptyHead = some m ∨ ((σ'.sc a c).slabs m).canary = canaryValue ro.g v)

theorem finishLarge_took {ro : Ro} {R : Choice → Prop} (hR : ∃ ch, R ch) {size guard : Nat} {v : BitVec 64} {st : Bool} {o : Option Nat} {σ0 σ : St} {tl : Tl} :
    (finishLarge ro size guard st o).EndsIf R σ tl fun σ' _ o => ∀ p, o = some p → Took ro v σ0 σ' p := by
  unfold finishLarge
  cases o with
  | none => exact Prog.EndsIf.ret fun p e => by cases e
  | some p =>
    refine Prog.EndsIf.bind hR (critical_endsIf fun ch σ1 e1 b _ hf tl1 => ?_)
    split at hf
    · cases hf
    · split at hf <;> cases hf
      · rename_i rt h1
        refine Prog.EndsIf.ret fun q e => Or.inl ?_
        cases e
        unfold regionsInsert at h1
        replace h1 : ∃ t' : Option RegTable, (match t' with
            | none => (Res.ok none : Res (Option RegTable))
            | some t => match tableInsert hashPage t.tab t.total ⟨p, size, guard⟩ with
              | none => .hang
              | some tab => .ok (some { t.setTab tab with free := t.free - 1 })) = .ok (some rt) := by
          simp only at h1
          split at h1 <;>
          · obtain ⟨t', _, h1⟩ := bind_ok h1
            exact ⟨t', h1⟩
        obtain ⟨t', h1⟩ := h1
        cases t' with
        | none => cases h1
        | some t1 =>
          simp only at h1
          split at h1 <;> cases h1
          rename_i tab h2
          unfold tableInsert at h2
          split at h2 <;> cases h2
          rename_i i _
          refine ⟨i, size, guard, ?_⟩
          show (t1.setTab _).tab i = _
          rw [t1.setTab_tab, RTab.set_same]
      · simp only [Bool.false_eq_true, if_false]
        refine Prog.EndsIf.bind hR ?_
        exact fun _ _ _ _ _ _ => Prog.EndsIf.ret fun q e => by cases e

section
variable {ro : Ro} {v : BitVec 64} {w : World} {tl : Tl}

theorem drawn_ex (v : BitVec 64) : ∃ ch : Choice, ch.canary = v := ⟨{ Choice.quiet with canary := v }, rfl⟩

theorem allocateLarge_took {n : Nat} {σ0 σ : St} :
    (allocateLarge ro n).EndsIf (·.canary = v) σ tl fun σ' _ o => ∀ p, o = some p → Took ro v σ0 σ' p := by
  unfold allocateLarge
  simp only
  split
  · exact Prog.EndsIf.bind (drawn_ex v) fun _ _ _ _ _ _ => Prog.EndsIf.ret fun p e => by cases e
  · exact Prog.EndsIf.bind (drawn_ex v) fun _ _ _ _ _ _ => Prog.EndsIf.bind (drawn_ex v) fun _ _ _ _ _ _ => finishLarge_took (drawn_ex v)

theorem overAligned_took {al n : Nat} {σ0 σ : St} :
    (allocateOverAligned ro al n).EndsIf (·.canary = v) σ tl fun σ' _ o => ∀ p, o = some p → Took ro v σ0 σ' p := by
  unfold allocateOverAligned
  simp only
  split
  · exact Prog.EndsIf.ret fun p e => by cases e
  · exact Prog.EndsIf.bind (drawn_ex v) fun _ _ _ _ _ _ => Prog.EndsIf.bind (drawn_ex v) fun _ _ _ _ _ _ => finishLarge_took (drawn_ex v)

theorem allocate_took (hro : RoOk ro) (hi : GInv ro w) (hcan : ro.g.slabCanary = true) {a n : Nat} (ha : a < ro.g.nArena) :
    (allocate ro a n).EndsIf (·.canary = v) w.σ tl fun σ' _ o => ∀ p, o = some p → Took ro v w.σ σ' p := by
  unfold allocate
  split
  · rename_i hn
    have hc := clsOf_lt hn
    refine critical_endsIf fun ch σ1 e1 o hv hf tl1 p hp => Or.inr ?_
    simp only at hf
    rw [if_neg (by have : (getSizeInfo n).cls < nClasses ro.g := hc; omega)] at hf
    obtain ⟨P, E, Fl, hinv⟩ := hi.cls a _ ha hc
    have sp := allocateSmall_spec (ch := ch) (e := tl.errno) hro.valid (hro.base ha hc) hc (clsOf_zero hn) hinv (hi.clsVm a _ ha hc)
    simp only [Cfg.clsOf] at hc hinv sp
    generalize (getSizeInfo n).cls = c at *
    split at hf <;> cases hf
    rename_i hs
    subst hp
    rw [hs] at sp
    obtain ⟨_, i, k, l, hp, _, _, _, T, _⟩ := sp
    have G := classGeo ro.g hc
    obtain ⟨m, k', hk', hpe, hcase⟩ := allocateSmall_canary hcan G.slots_pos G.slots_le hs
    obtain ⟨rfl, rfl⟩ := slotAddr_inj hc T.lt hk' (hp.symm.trans hpe)
    rw [hv] at hcase
    refine ⟨a, c, i, k, ⟨ha, hc, hp, ?_⟩, ?_⟩
    · simp only [if_true, and_self]
      unfold SC.live
      rw [T.used, T.quar]
      have : (w.σ.sc a c).quar i k = false := by
        by_contra hq
        rw [Bool.not_eq_false, hinv.qarr.bit] at hq
        have := hinv.qarr.sub i k hq
        rw [T.free] at this
        cases this
      simp [this]
    · simpa using hcase
  · exact allocateLarge_took
theorem alloc_took (hro : RoOk ro) (hi : GInv ro w) (hcan : ro.g.slabCanary = true) {a n : Nat} (ha : a < ro.g.nArena) :
    (alloc ro a n).EndsIf (·.canary = v) w.σ tl fun σ' _ o => ∀ p, o = some p → Took ro v w.σ σ' p := by
  unfold alloc
  refine Prog.EndsIf.bind (drawn_ex v) (Prog.EndsIf.act fun ch σ1 tl1 _ _ e1 => Prog.EndsIf.ret ?_)
  cases e1
  refine Prog.EndsIf.bind (drawn_ex v) ((allocate_took hro hi hcan ha).weaken fun σ2 tl2 o h => ?_)
  refine Prog.EndsIf.bind (drawn_ex v) (Prog.EndsIf.act fun ch σ3 tl3 _ _ e3 => Prog.EndsIf.ret ?_)
  cases e3
  exact Prog.EndsIf.ret h

theorem allocateAligned_took (hro : RoOk ro) (hi : GInv ro w) (hcan : ro.g.slabCanary = true) {a al n mn : Nat} (ha : a < ro.g.nArena) :
    (allocateAligned ro a al n mn).EndsIf (·.canary = v) w.σ tl fun σ' _ o => ∀ p, o = .ok p → Took ro v w.σ σ' p := by
  have key : ∀ {P : Prog (Option Nat)}, P.EndsIf (·.canary = v) w.σ tl (fun σ' _ o => ∀ p, o = some p → Took ro v w.σ σ' p) → (P >>= fun o => match o with
      | none => (return .error ENOMEM : Prog (Except Errno Nat))
      | some p => return .ok p).EndsIf (·.canary = v) w.σ tl fun σ' _ o => ∀ p, o = .ok p → Took ro v w.σ σ' p := fun {P} hP => by
    refine Prog.EndsIf.bind (drawn_ex v) (hP.weaken fun σ2 tl2 o h => ?_)
    cases o with
    | none => exact Prog.EndsIf.ret fun p e => by cases e
    | some q => exact Prog.EndsIf.ret fun p e => by cases e; exact h _ rfl
  unfold allocateAligned
  split
  · exact Prog.EndsIf.ret fun p e => by cases e
  · split
    · split
      · split
        · intro chs σ' tl' o _ e; cases e
        · exact key (allocate_took hro hi hcan ha)
      · exact key (allocate_took hro hi hcan ha)
    · exact key overAligned_took

theorem allocAligned_took (hro : RoOk ro) (hi : GInv ro w) (hcan : ro.g.slabCanary = true) {a al n mn : Nat} (ha : a < ro.g.nArena) :
    (allocAligned ro a al n mn).EndsIf (·.canary = v) w.σ tl fun σ' _ o => ∀ p, o = .ok p → Took ro v w.σ σ' p := by
  unfold allocAligned
  refine Prog.EndsIf.bind (drawn_ex v) (Prog.EndsIf.act fun ch σ1 tl1 _ _ e1 => Prog.EndsIf.ret ?_)
  cases e1
  refine Prog.EndsIf.bind (drawn_ex v) ((allocateAligned_took hro hi hcan ha).weaken fun σ2 tl2 o h => ?_)
  refine Prog.EndsIf.bind (drawn_ex v) (Prog.EndsIf.act fun ch σ3 tl3 _ _ e3 => Prog.EndsIf.ret ?_)
  cases e3
  exact Prog.EndsIf.ret h

theorem allocAlignedSimple_took (hro : RoOk ro) (hi : GInv ro w) (hcan : ro.g.slabCanary = true) {a al n : Nat} (ha : a < ro.g.nArena) :
    (allocAlignedSimple ro a al n).EndsIf (·.canary = v) w.σ tl fun σ' _ o => ∀ p, o = some p → Took ro v w.σ σ' p := by
  unfold allocAlignedSimple
  refine Prog.EndsIf.bind (drawn_ex v) ((allocAligned_took hro hi hcan ha).weaken fun σ2 tl2 o h => ?_)
  cases o with
  | error e => exact Prog.EndsIf.bind (drawn_ex v) fun _ _ _ _ _ _ => Prog.EndsIf.ret fun p e => by cases e
  | ok q => exact Prog.EndsIf.ret fun p e => by cases e; exact h _ rfl

theorem hCalloc_took (hro : RoOk ro) (hi : GInv ro w) (hcan : ro.g.slabCanary = true) {a n k : Nat} (ha : a < ro.g.nArena) :
    (hCalloc ro a n k).EndsIf (·.canary = v) w.σ tl fun σ' _ o => ∀ p, o = some p → Took ro v w.σ σ' p := by
  unfold hCalloc
  split
  · exact Prog.EndsIf.bind (drawn_ex v) fun _ _ _ _ _ _ => Prog.EndsIf.ret fun p e => by cases e
  · refine Prog.EndsIf.bind (drawn_ex v) ((alloc_took hro hi hcan ha).weaken fun σ2 tl2 o h => ?_)
    cases o with
    | none => exact Prog.EndsIf.ret fun p e => by cases e
    | some q =>
      simp only
      split
      · refine Prog.EndsIf.bind (drawn_ex v) (Prog.EndsIf.act fun ch σ3 tl3 _ _ e3 => Prog.EndsIf.ret (Prog.EndsIf.ret fun p e => ?_))
        split at e3 <;> cases e3
        exact h p e
      · exact Prog.EndsIf.ret h

theorem endsIf_retPtr {P : Prog (Option Nat)} {σ : St} {A : St → Nat → Prop}
    (h : P.EndsIf (·.canary = v) σ tl fun σ' _ o => ∀ p, o = some p → A σ' p) :
    (P >>= fun o => (return retPtr o : Prog Ret)).EndsIf (·.canary = v) σ tl fun σ' _ x => ∀ p, x.block = some p → A σ' p :=
  Prog.EndsIf.bind (drawn_ex v) (h.weaken fun _ _ _ h1 => Prog.EndsIf.ret fun p e => h1 p (block_retPtr e))

theorem call_took (hro : RoOk ro) (hi : GInv ro w) (hcan : ro.g.slabCanary = true) {a : Nat} (ha : a < ro.g.nArena) {c : Call} {i : Info} (hr : c.request = some i) :
    (c.prog ro a).EndsIf (·.canary = v) w.σ tl fun σ' _ x => ∀ p, x.block = some p → Took ro v w.σ σ' p := by
  cases c <;> cases hr <;> unfold Call.prog
  · exact endsIf_retPtr (alloc_took hro hi hcan ha)
  · exact endsIf_retPtr (hCalloc_took hro hi hcan ha)
  · refine Prog.EndsIf.bind (drawn_ex v) ((allocAligned_took hro hi hcan ha).weaken fun _ _ o h1 => Prog.EndsIf.ret fun p e => h1 p ?_)
    cases o with
    | error => cases e
    | ok => cases e; rfl
  · exact endsIf_retPtr (allocAlignedSimple_took hro hi hcan ha)
  · exact endsIf_retPtr (allocAlignedSimple_took hro hi hcan ha)
  · refine endsIf_retPtr ?_
    unfold hPvalloc
    split
    · exact Prog.EndsIf.bind (drawn_ex v) fun _ _ _ _ _ _ => Prog.EndsIf.ret fun p e => by cases e
    · exact allocAlignedSimple_took hro hi hcan ha
end

section
variable {g : Cfg} {ro : Ro} {ar : Nat → Nat} {calm : Bool} {D : Client} {h : List Ev} {s s' : Sys} {t : Nat} {chs : Nat → Choice}

/-- If a call returns a small block whose memory was not accessible before, then its slab has the canary drawn. -/
theorem canary_drawn (hg : Good g ar) (r : Reach g ro ar calm D h s) {c : Call} {x : Ret} {i : Info} {p u : Nat} {v : BitVec 64} (hok : c.Ok) (hr : c.request = some i)
    (hcan : g.slabCanary = true) (he : ∀ j, Env calm (chs j)) (hv : ∀ j, (chs j).canary = v) (hc : s.call ro ar t c chs = .ok (s', x))
    (hx : x.block = some p) (h1 : ro.slabStart ≤ p) (h2 : p < ro.slabEnd) (ha : ¬ s.access p) (hu : Usable ro s'.σ p u) (h0 : 0 < u) :
    ∃ a c i k, IsSmall ro s'.σ p a c i k ∧ ro.g.classSize c ≠ 0 ∧ u + 8 = ro.g.slotSize c ∧ ((s'.σ.sc a c).slabs i).canary = canaryValue ro.g v ∧
      CanaryFine ro.g (canaryValue ro.g v) (p + u) s'.σ.vm ∧ ∃ w' : World, w'.σ = s'.σ ∧ GInv ro w' := by
  have hn : ∀ n, c ≠ .realloc p n := fun n e => by rw [e] at hr; cases hr
  obtain ⟨hro, rfl⟩ := r.roOk hg
  obtain ⟨w, w', C, _⟩ := r.called hg hok he hc
  have I := C.post.linked.inv
  have H := C.res.handed hro hok hx hn
  rw [← C.post.σ] at hu
  replace hu := hu.is hro C.post.linked ((C.post.linked.blk p).mp H.blk)
  obtain ⟨a, cl, i, k, h5, h6, h7⟩ := hu.small hro I h1 h2
  obtain ⟨h8, h9⟩ := h6 (by omega)
  have h10 : ro.g.canarySize = 8 := by unfold Cfg.canarySize; rw [hcan]; rfl
  have h11 := (classGeo ro.g h5.2.1).size_ge
  have h13 : CanaryFine ro.g ((w'.σ.sc a cl).slabs i).canary (p + ro.g.slotSize cl - 8) w'.σ.vm := by
    by_contra h13
    exact H.canary ⟨hcan, a, cl, i, k, h5, h8, h13⟩
  have hT : Took ro v s.σ s'.σ p := by
    unfold Sys.call at hc
    split at hc <;> cases hc
    rename_i h1
    rw [← C.pre.σ] at h1 ⊢
    exact call_took hro C.pre.linked.inv hcan (hg.arena t) hr _ _ _ _ hv h1 p hx
  have hcv : ((w'.σ.sc a cl).slabs i).canary = canaryValue ro.g v := by
    rw [← C.post.σ] at hT
    rcases hT with ⟨j, size, gd, hT⟩ | ⟨a', c', m, k', hT, hcase⟩
    · have hp : p ≠ 0 := by have := hro.lo; omega
      refine (not_small_has hro I h5 (s := size) (g := gd) ⟨hp, j, ?_, hT⟩).elim
      by_contra hlt
      have h2 := I.rt.outside j (by omega)
      rw [hT] at h2
      exact hp h2
    · obtain ⟨rfl, rfl, rfl, rfl⟩ := h5.uniq hro I hT
      obtain ⟨P, E, F, hin⟩ := C.pre.linked.inv.cls _ _ h5.1 h5.2.1
      have hvm := C.pre.linked.inv.clsVm _ _ h5.1 h5.2.1
      have hrange : inRange (slabAddr (ro.regionStart a' c') (ro.g.slabSize c') m) (ro.g.slabSize c') p := by
        rw [h5.2.2.1]
        have h15 := slot_in_slab h5.2.1 (h5.lt I).2.1
        unfold slotAddr slotPointer inRange
        omega
      have hno : (w.G.loc a' c' m).isRw ≠ true := fun hl => by
        have := hvm.rw m p hl h8 hrange
        rw [C.pre.σ] at this
        exact ha this
      rw [C.pre.σ] at hin
      rcases hcase with h | h | h
      · rw [hin.lists.ph] at h
        rw [(hin.lists.pm m).mp (List.mem_of_head? h)] at hno
        exact absurd rfl hno
      · rw [hin.lists.eh] at h
        rw [(hin.lists.em m).mp (List.mem_of_head? h)] at hno
        exact absurd rfl hno
      · exact h
  rw [hcv, show p + ro.g.slotSize cl - 8 = p + u by omega] at h13
  rw [C.post.σ] at h5 hcv h13
  exact ⟨a, cl, i, k, h5, h8, by omega, hcv, h13, w', C.post.σ, I⟩

/-- C70, partial: for all functions that allocate except `realloc`, and without memory tagging. Suppose canaries are configured and the build has no memory tagging. If a call returns a small
block `p`, of usable size `u > 0`, whose memory was not accessible before the call (so that the slab it is in is used for the first time, or for the first time since its memory was
given back), then the canary after the block is the 64-bit random number `v` drawn by the call, with the first byte replaced by zero. -/
theorem c70_canary_partial (hg : Good g ar) (r : Reach g ro ar calm D h s) {c : Call} {x : Ret} {i : Info} {p u : Nat} {v : BitVec 64} (hok : c.Ok) (hr : c.request = some i)
    (hcan : g.slabCanary = true) (hm : g.mte = false) (he : ∀ j, Env calm (chs j)) (hv : ∀ j, (chs j).canary = v) (hc : s.call ro ar t c chs = .ok (s', x))
    (hx : x.block = some p) (h1 : ro.slabStart ≤ p) (h2 : p < ro.slabEnd) (ha : ¬ s.access p) (hu : Usable ro s'.σ p u) (h0 : 0 < u) :
    s'.byte (p + u) = 0#8 ∧ ∀ j, 1 ≤ j → j < 8 → s'.byte (p + u + j) = (v >>> (8 * j)).setWidth 8 := by
  have hn : ∀ n, c ≠ .realloc p n := fun n e => by rw [e] at hr; cases hr
  refine ⟨(c09_leading_zero hg r hok he hcan hc hx hn h1 h2 hu h0).1, fun j j1 j8 => ?_⟩
  obtain ⟨a, cl, i, k, _, _, _, _, h13, _⟩ := canary_drawn hg r hok hr hcan he hv hc hx h1 h2 ha hu h0
  obtain ⟨hro, rfl⟩ := r.roOk hg
  show s'.σ.vm.mem _ = _
  rw [h13.value hm j8]
  unfold byteOf canaryValue
  rw [hm]
  simp only [Bool.false_and, Bool.false_eq_true, if_false]
  exact mask_byte v j1 j8

end

/-- The first block of a slab. -/
example : ∃ h s s1, Reach (exCfg false false) (exRo false false) (fun t => t % 4) false anyClient h s ∧ (exCfg false false).slabCanary = true ∧ (exCfg false false).mte = false ∧
    (∀ _ : Nat, Env false { exAt 0 with canary := 0x1122334455667788#64 }) ∧
    s.call (exRo false false) (fun t => t % 4) 0 (.malloc 100) (fun _ => { exAt 0 with canary := 0x1122334455667788#64 }) = .ok (s1, .ptr exA) ∧
    (exRo false false).slabStart ≤ exA ∧ exA < (exRo false false).slabEnd ∧ ¬ s.access exA ∧ Usable (exRo false false) s1.σ exA 104 := by
  obtain ⟨h, s, h1, h2⟩ := ex_any (stats := false) (sealed := false) (calm := false) [.call 0 (.malloc 200) 0]
    (fun _ s => decide (s.σ.vm.prot (exA / PAGE) = .none) &&
      match s.call (exRo false false) (fun t => t % 4) 0 (.malloc 100) (fun _ => { exAt 0 with canary := 0x1122334455667788#64 }) with
        | .ok (s1, .ptr p) => decide (p = exA) && decide (usableB (exRo false false) s1.σ exA = some 104)
        | _ => false) (by decide +kernel)
  rw [Bool.and_eq_true, decide_eq_true_eq] at h2
  obtain ⟨h2, h3⟩ := h2
  split at h3 <;> try cases h3
  rename_i s2 p2 e2
  simp only [Bool.and_eq_true, decide_eq_true_eq] at h3
  obtain ⟨rfl, h3⟩ := h3
  refine ⟨h, s, s2, h1, rfl, rfl, fun _ => exAt_env _ 0, e2, by decide, by decide, fun hn => ?_, usableB_usable h3⟩
  rw [Sys.access, h2] at hn
  cases hn

end HM
