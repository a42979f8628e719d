import Verif.Props.RandomCanary

/-! Random canaries (C70) in builds with memory tagging, while tagging is off. -/

namespace HM

/-- While tagging is off, a slot that is handed out gets the canary of its slab. -/
theorem prepareSlot_wrote {g : Cfg} {check : Bool} {n size p : Nat} {canary : BitVec 64} {vm vm' : Vm} (hcan : g.slabCanary = true) (h0 : n ≠ 0)
    (h : prepareSlot g false check n size p canary vm = .ok vm') {j : Nat} (hj : j < 8) : vm'.mem (p + size - 8 + j) = byteOf canary j := by
  unfold prepareSlot at h
  rw [if_neg h0] at h
  have key : ∀ {vm1 : Vm}, setCanary g false canary p size vm = .ok vm1 → vm1.mem (p + size - 8 + j) = byteOf canary j := fun {vm1} h1 => by
    unfold setCanary at h1
    rw [hcan] at h1
    simp only [Bool.not_true, Bool.or_self, Bool.false_eq_true, if_false] at h1
    split at h1 <;> cases h1
    show (if inRange _ _ _ then _ else _) = _
    rw [if_pos (by unfold inRange; omega), Nat.add_sub_cancel_left]
  cases check with
  | true =>
    simp only [if_true, Bool.false_eq_true, if_false, Res.bind_eq_ok] at h
    obtain ⟨_, _, vm1, h1, h2⟩ := h
    cases h2
    exact key h1
  | false =>
    simp only [Bool.false_eq_true, if_false, Res.bind_eq_ok] at h
    obtain ⟨vm1, h1, h2⟩ := h
    cases h2
    exact key h1

theorem statsAlloc_slabs' (g : Cfg) (c : SC) (n : Nat) : (c.statsAlloc g n).slabs = c.slabs := by
  unfold SC.statsAlloc
  split <;> rfl

theorem allocateSmall_wrote {g : Cfg} {base cls n : Nat} {ch : Choice} {c c1 : SC} {vm vm1 : Vm} {e e1 : Errno} {p : Nat} (hcan : g.slabCanary = true)
    (h1 : 1 ≤ g.slots cls) (h256 : g.slots cls ≤ 256) (ht : tagging g ch = false) (h0 : n ≠ 0) (h : allocateSmall g base cls n ch c vm e = .ok (some p, c1, vm1, e1)) :
    ∃ m k, k < g.slots cls ∧ p = slotAddr g base cls m k ∧ ∀ j, j < 8 → vm1.mem (p + g.slotSize cls - 8 + j) = byteOf (c1.slabs m).canary j := by
  unfold allocateSmall at h
  cases hp : c.partialHead with
  | some m =>
    simp only [hp] at h
    unfold allocFromPartial at h
    simp only [Res.bind_eq_ok, Prod.exists] at h
    obtain ⟨k, c3, h2, vm3, h4, h3⟩ := h
    obtain ⟨hk, hu⟩ := takeSlot_range h1 h256 h2
    cases h3
    rw [ht] at h4
    refine ⟨m, k, hk, rfl, fun j hj => ?_⟩
    rw [statsAlloc_slabs']
    exact prepareSlot_wrote hcan h0 h4 hj
  | none =>
    cases he : c.emptyHead with
    | some m =>
      simp only [hp, he] at h
      unfold allocFromEmpty at h
      simp only [Res.bind_eq_ok, Prod.exists] at h
      obtain ⟨k, c3, h2, vm3, h4, h3⟩ := h
      obtain ⟨hk, hu⟩ := takeSlot_range h1 h256 h2
      cases h3
      rw [ht] at h4
      refine ⟨m, k, hk, rfl, fun j hj => ?_⟩
      rw [statsAlloc_slabs']
      exact prepareSlot_wrote hcan h0 h4 hj
    | none =>
      cases hf : c.freeHead with
      | some m =>
        simp only [hp, he, hf] at h
        unfold allocFromFree at h
        simp only [Res.bind_eq_ok, Prod.exists] at h
        obtain ⟨vm3, b, h2, h⟩ := h
        cases b with
        | true => simp at h
        | false =>
          simp only [Bool.false_eq_true, if_false, Res.bind_eq_ok, Prod.exists] at h
          obtain ⟨k, c3, h3, vm4, h4, h5⟩ := h
          obtain ⟨hk, hu⟩ := takeSlot_range h1 h256 h3
          cases h5
          rw [ht] at h4
          refine ⟨m, k, hk, rfl, fun j hj => ?_⟩
          rw [statsAlloc_slabs]
          exact prepareSlot_wrote hcan h0 h4 hj
      | none =>
        simp only [hp, he, hf] at h
        unfold allocFromNew at h
        simp only [Res.bind_eq_ok, Prod.exists] at h
        obtain ⟨mo, c3, vm3, e3, h2, h⟩ := h
        cases mo with
        | none => simp at h
        | some m =>
          simp only [Res.bind_eq_ok, Prod.exists] at h
          obtain ⟨k, c4, h3, vm4, h4, h5⟩ := h
          obtain ⟨hk, hu⟩ := takeSlot_range h1 h256 h3
          cases h5
          rw [ht] at h4
          refine ⟨m, k, hk, rfl, fun j hj => ?_⟩
          rw [statsAlloc_slabs]
          exact prepareSlot_wrote hcan h0 h4 hj

/-- `p` is recorded as a large block, or it is a small block in a slot of at least `n` bytes that ends with the canary of its slab. -/
def WroteCanary (ro : Ro) (n : Nat) (σ : St) (p : Nat) : Prop :=
  (∃ i size gd, σ.rt.tab i = ⟨p, size, gd⟩) ∨
  ∃ a c m k, IsSmall ro σ p a c m k ∧ (ro.g.classSize c ≠ 0 → n ≤ ro.g.slotSize c ∧ ∀ j, j < 8 → σ.vm.mem (p + ro.g.slotSize c - 8 + j) = byteOf ((σ.sc a c).slabs m).canary j)

theorem WroteCanary.zero {ro : Ro} {n : Nat} {σ : St} {p : Nat} (h : WroteCanary ro n σ p) : WroteCanary ro 0 σ p :=
  h.imp id fun ⟨a, c, m, k, h1, h2⟩ => ⟨a, c, m, k, h1, fun hz => ⟨Nat.zero_le _, (h2 hz).2⟩⟩

theorem off_ex (g : Cfg) : ∃ ch : Choice, tagging g ch = false := ⟨{ Choice.quiet with memtag := false }, by simp [tagging]⟩

theorem finishLarge_wrote {ro : Ro} {n : Nat} {R : Choice → Prop} (hR : ∃ ch, R ch) {size guard : Nat} {st : Bool} {o : Option Nat} {σ : St} {tl : Tl} :
    (finishLarge ro size guard st o).EndsIf R σ tl fun σ' _ o => ∀ p, o = some p → WroteCanary ro n σ' p := by
  unfold finishLarge
  cases o with
  | none => exact Prog.EndsIf.ret fun p e => by cases e
  | some p =>
    refine Prog.EndsIf.bind hR (critical_endsIf fun ch σ1 e1 b _ hf tl1 => ?_)
    split at hf
    · cases hf
    · split at hf <;> cases hf
      · rename_i rt h1
        refine Prog.EndsIf.ret fun q e => Or.inl ?_
        cases e
        unfold regionsInsert at h1
        replace h1 : ∃ t' : Option RegTable, (match t' with
            | none => (Res.ok none : Res (Option RegTable))
            | some t => match tableInsert hashPage t.tab t.total ⟨p, size, guard⟩ with
              | none => .hang
              | some tab => .ok (some { t.setTab tab with free := t.free - 1 })) = .ok (some rt) := by
          simp only at h1
          split at h1 <;>
          · obtain ⟨t', _, h1⟩ := bind_ok h1
            exact ⟨t', h1⟩
        obtain ⟨t', h1⟩ := h1
        cases t' with
        | none => cases h1
        | some t1 =>
          simp only at h1
          split at h1 <;> cases h1
          rename_i tab h2
          unfold tableInsert at h2
          split at h2 <;> cases h2
          rename_i i _
          refine ⟨i, size, guard, ?_⟩
          show (t1.setTab _).tab i = _
          rw [t1.setTab_tab, RTab.set_same]
      · simp only [Bool.false_eq_true, if_false]
        refine Prog.EndsIf.bind hR ?_
        exact fun _ _ _ _ _ _ => Prog.EndsIf.ret fun q e => by cases e

section
variable {ro : Ro} {w : World} {tl : Tl}

theorem allocateLarge_wrote {n : Nat} {σ : St} :
    (allocateLarge ro n).EndsIf (tagging ro.g · = false) σ tl fun σ' _ o => ∀ p, o = some p → WroteCanary ro n σ' p := by
  unfold allocateLarge
  simp only
  split
  · exact Prog.EndsIf.bind (off_ex ro.g) fun _ _ _ _ _ _ => Prog.EndsIf.ret fun p e => by cases e
  · exact Prog.EndsIf.bind (off_ex ro.g) fun _ _ _ _ _ _ => Prog.EndsIf.bind (off_ex ro.g) fun _ _ _ _ _ _ => finishLarge_wrote (off_ex ro.g)

theorem overAligned_wrote {al n : Nat} {σ : St} :
    (allocateOverAligned ro al n).EndsIf (tagging ro.g · = false) σ tl fun σ' _ o => ∀ p, o = some p → WroteCanary ro n σ' p := by
  unfold allocateOverAligned
  simp only
  split
  · exact Prog.EndsIf.ret fun p e => by cases e
  · exact Prog.EndsIf.bind (off_ex ro.g) fun _ _ _ _ _ _ => Prog.EndsIf.bind (off_ex ro.g) fun _ _ _ _ _ _ => finishLarge_wrote (off_ex ro.g)

theorem allocate_wrote (hro : RoOk ro) (hi : GInv ro w) (hcan : ro.g.slabCanary = true) {a n : Nat} (ha : a < ro.g.nArena) :
    (allocate ro a n).EndsIf (tagging ro.g · = false) w.σ tl fun σ' _ o => ∀ p, o = some p → WroteCanary ro n σ' p := by
  unfold allocate
  split
  · rename_i hn
    have hc := clsOf_lt hn
    refine critical_endsIf fun ch σ1 e1 o hv hf tl1 p hp => Or.inr ?_
    simp only at hf
    rw [if_neg (by have : (getSizeInfo n).cls < nClasses ro.g := hc; omega)] at hf
    obtain ⟨P, E, Fl, hinv⟩ := hi.cls a _ ha hc
    have sp := allocateSmall_spec (ch := ch) (e := tl.errno) hro.valid (hro.base ha hc) hc (clsOf_zero hn) hinv (hi.clsVm a _ ha hc)
    have hle := le_classSize hn
    have hz0 := clsOf_zero hn
    simp only [Cfg.clsOf] at hc hinv sp hle hz0
    generalize (getSizeInfo n).cls = c at *
    split at hf <;> cases hf
    rename_i hs
    subst hp
    rw [hs] at sp
    obtain ⟨_, i, k, l, hp, _, _, _, T, _⟩ := sp
    have G := classGeo ro.g hc
    refine ⟨a, c, i, k, ⟨ha, hc, hp, ?_⟩, fun hz => ?_⟩
    · simp only [if_true, and_self]
      unfold SC.live
      rw [T.used, T.quar]
      have : (w.σ.sc a c).quar i k = false := by
        by_contra hq
        rw [Bool.not_eq_false, hinv.qarr.bit] at hq
        have := hinv.qarr.sub i k hq
        rw [T.free] at this
        cases this
      simp [this]
    · have hsz : n ≤ ro.g.slotSize c := by unfold Cfg.slotSize; rw [if_neg hz]; exact hle
      obtain ⟨m, k', hk', hpe, hcase⟩ := allocateSmall_wrote hcan G.slots_pos G.slots_le hv (fun e => hz (hz0.mp e)) hs
      obtain ⟨rfl, rfl⟩ := slotAddr_inj hc T.lt hk' (hp.symm.trans hpe)
      refine ⟨hsz, fun j hj => ?_⟩
      simpa using hcase j hj
  · exact allocateLarge_wrote
theorem alloc_wrote (hro : RoOk ro) (hi : GInv ro w) (hcan : ro.g.slabCanary = true) {a n : Nat} (ha : a < ro.g.nArena) :
    (alloc ro a n).EndsIf (tagging ro.g · = false) w.σ tl fun σ' _ o => ∀ p, o = some p → WroteCanary ro n σ' p := by
  unfold alloc
  refine Prog.EndsIf.bind (off_ex ro.g) (Prog.EndsIf.act fun ch σ1 tl1 _ _ e1 => Prog.EndsIf.ret ?_)
  cases e1
  refine Prog.EndsIf.bind (off_ex ro.g) ((allocate_wrote hro hi hcan ha).weaken fun σ2 tl2 o h => ?_)
  refine Prog.EndsIf.bind (off_ex ro.g) (Prog.EndsIf.act fun ch σ3 tl3 _ _ e3 => Prog.EndsIf.ret ?_)
  cases e3
  exact Prog.EndsIf.ret h

theorem allocateAligned_wrote (hro : RoOk ro) (hi : GInv ro w) (hcan : ro.g.slabCanary = true) {a al n mn : Nat} (ha : a < ro.g.nArena) :
    (allocateAligned ro a al n mn).EndsIf (tagging ro.g · = false) w.σ tl fun σ' _ o => ∀ p, o = .ok p → WroteCanary ro 0 σ' p := by
  have key : ∀ {P : Prog (Option Nat)}, P.EndsIf (tagging ro.g · = false) w.σ tl (fun σ' _ o => ∀ p, o = some p → WroteCanary ro 0 σ' p) → (P >>= fun o => match o with
      | none => (return .error ENOMEM : Prog (Except Errno Nat))
      | some p => return .ok p).EndsIf (tagging ro.g · = false) w.σ tl fun σ' _ o => ∀ p, o = .ok p → WroteCanary ro 0 σ' p := fun {P} hP => by
    refine Prog.EndsIf.bind (off_ex ro.g) (hP.weaken fun σ2 tl2 o h => ?_)
    cases o with
    | none => exact Prog.EndsIf.ret fun p e => by cases e
    | some q => exact Prog.EndsIf.ret fun p e => by cases e; exact h _ rfl
  unfold allocateAligned
  split
  · exact Prog.EndsIf.ret fun p e => by cases e
  · split
    · split
      · split
        · intro chs σ' tl' o _ e; cases e
        · exact key ((allocate_wrote hro hi hcan ha).weaken fun _ _ _ h p e => (h p e).zero)
      · exact key ((allocate_wrote hro hi hcan ha).weaken fun _ _ _ h p e => (h p e).zero)
    · exact key (overAligned_wrote.weaken fun _ _ _ h p e => (h p e).zero)

theorem allocAligned_wrote (hro : RoOk ro) (hi : GInv ro w) (hcan : ro.g.slabCanary = true) {a al n mn : Nat} (ha : a < ro.g.nArena) :
    (allocAligned ro a al n mn).EndsIf (tagging ro.g · = false) w.σ tl fun σ' _ o => ∀ p, o = .ok p → WroteCanary ro 0 σ' p := by
  unfold allocAligned
  refine Prog.EndsIf.bind (off_ex ro.g) (Prog.EndsIf.act fun ch σ1 tl1 _ _ e1 => Prog.EndsIf.ret ?_)
  cases e1
  refine Prog.EndsIf.bind (off_ex ro.g) ((allocateAligned_wrote hro hi hcan ha).weaken fun σ2 tl2 o h => ?_)
  refine Prog.EndsIf.bind (off_ex ro.g) (Prog.EndsIf.act fun ch σ3 tl3 _ _ e3 => Prog.EndsIf.ret ?_)
  cases e3
  exact Prog.EndsIf.ret h

theorem allocAlignedSimple_wrote (hro : RoOk ro) (hi : GInv ro w) (hcan : ro.g.slabCanary = true) {a al n : Nat} (ha : a < ro.g.nArena) :
    (allocAlignedSimple ro a al n).EndsIf (tagging ro.g · = false) w.σ tl fun σ' _ o => ∀ p, o = some p → WroteCanary ro 0 σ' p := by
  unfold allocAlignedSimple
  refine Prog.EndsIf.bind (off_ex ro.g) ((allocAligned_wrote hro hi hcan ha).weaken fun σ2 tl2 o h => ?_)
  cases o with
  | error e => exact Prog.EndsIf.bind (off_ex ro.g) fun _ _ _ _ _ _ => Prog.EndsIf.ret fun p e => by cases e
  | ok q => exact Prog.EndsIf.ret fun p e => by cases e; exact h _ rfl

theorem hCalloc_wrote (hro : RoOk ro) (hi : GInv ro w) (hcan : ro.g.slabCanary = true) {a n k : Nat} (ha : a < ro.g.nArena) :
    (hCalloc ro a n k).EndsIf (tagging ro.g · = false) w.σ tl fun σ' _ o => ∀ p, o = some p → WroteCanary ro 0 σ' p := by
  unfold hCalloc
  split
  · exact Prog.EndsIf.bind (off_ex ro.g) fun _ _ _ _ _ _ => Prog.EndsIf.ret fun p e => by cases e
  · refine Prog.EndsIf.bind (off_ex ro.g) ((alloc_wrote hro hi hcan ha).weaken fun σ2 tl2 o h => ?_)
    cases o with
    | none => exact Prog.EndsIf.ret fun p e => by cases e
    | some q =>
      simp only
      split
      · refine Prog.EndsIf.bind (off_ex ro.g) (Prog.EndsIf.act fun ch σ3 tl3 _ _ e3 => Prog.EndsIf.ret (Prog.EndsIf.ret fun p e => ?_))
        split at e3 <;> cases e3
        refine (h p e).imp id fun ⟨b, c, m, k', h1, h2⟩ => ⟨b, c, m, k', h1, fun hz => ⟨Nat.zero_le _, fun j hj => ?_⟩⟩
        obtain ⟨h3, h4⟩ := h2 hz
        rw [← h4 j hj]
        cases e
        have h10 : ro.g.canarySize = 8 := by unfold Cfg.canarySize; rw [hcan]; rfl
        have h11 := (classGeo ro.g h1.2.1).size_ge
        show (if inRange _ _ _ then _ else _) = _
        rw [if_neg (by unfold inRange; omega)]
      · exact Prog.EndsIf.ret fun p e => (h p e).zero

theorem endsIf_retPtr_off {P : Prog (Option Nat)} {σ : St} {A : St → Nat → Prop}
    (h : P.EndsIf (tagging ro.g · = false) σ tl fun σ' _ o => ∀ p, o = some p → A σ' p) :
    (P >>= fun o => (return retPtr o : Prog Ret)).EndsIf (tagging ro.g · = false) σ tl fun σ' _ x => ∀ p, x.block = some p → A σ' p :=
  Prog.EndsIf.bind (off_ex ro.g) (h.weaken fun _ _ _ h1 => Prog.EndsIf.ret fun p e => h1 p (block_retPtr e))

theorem call_wrote (hro : RoOk ro) (hi : GInv ro w) (hcan : ro.g.slabCanary = true) {a : Nat} (ha : a < ro.g.nArena) {c : Call} {i : Info} (hr : c.request = some i) :
    (c.prog ro a).EndsIf (tagging ro.g · = false) w.σ tl fun σ' _ x => ∀ p, x.block = some p → WroteCanary ro 0 σ' p := by
  cases c <;> cases hr <;> unfold Call.prog
  · exact endsIf_retPtr_off ((alloc_wrote hro hi hcan ha).weaken fun _ _ _ h p e => (h p e).zero)
  · exact endsIf_retPtr_off (hCalloc_wrote hro hi hcan ha)
  · refine Prog.EndsIf.bind (off_ex ro.g) ((allocAligned_wrote hro hi hcan ha).weaken fun _ _ o h1 => Prog.EndsIf.ret fun p e => h1 p ?_)
    cases o with
    | error => cases e
    | ok => cases e; rfl
  · exact endsIf_retPtr_off (allocAlignedSimple_wrote hro hi hcan ha)
  · exact endsIf_retPtr_off (allocAlignedSimple_wrote hro hi hcan ha)
  · refine endsIf_retPtr_off ?_
    unfold hPvalloc
    split
    · exact Prog.EndsIf.bind (off_ex ro.g) fun _ _ _ _ _ _ => Prog.EndsIf.ret fun p e => by cases e
    · exact allocAlignedSimple_wrote hro hi hcan ha
end

section
variable {g : Cfg} {ro : Ro} {ar : Nat → Nat} {calm : Bool} {D : Client} {h : List Ev} {s s' : Sys} {t : Nat} {chs : Nat → Choice}

theorem mask_zero (v : BitVec 64) : v &&& 0xffffffffffffff00#64 = 0#64 ↔ v >>> 8 = 0#64 := by
  have hm : ∀ n : Nat, n < 64 → (0xffffffffffffff00#64).getLsbD n = decide (8 ≤ n) := by decide
  constructor <;> intro h <;> refine BitVec.eq_of_getLsbD_eq fun i hi => ?_
  · have := congrArg (fun x => x.getLsbD (8 + i)) h
    simp only [BitVec.getLsbD_and, BitVec.getLsbD_ushiftRight, BitVec.getLsbD_zero] at this ⊢
    by_cases h8 : 8 + i < 64
    · simpa [hm _ h8] using this
    · exact BitVec.getLsbD_of_ge _ _ (by omega)
  · simp only [BitVec.getLsbD_and, BitVec.getLsbD_zero, hm i hi]
    by_cases h8 : 8 ≤ i
    · have := congrArg (fun x => x.getLsbD (i - 8)) h
      simp only [BitVec.getLsbD_ushiftRight, BitVec.getLsbD_zero, show 8 + (i - 8) = i by omega] at this
      rw [this]; rfl
    · simp [h8]

/-- C70, partial: for all functions that allocate except `realloc`. Suppose canaries are configured, the build has memory tagging, and tagging is off during the call. If the call
returns a small block `p`, of usable size `u > 0`, whose memory was not accessible before the call, then the canary after the block is the 64-bit random number `v` drawn by the
call, with the first byte replaced by zero; but if this would be zero, the second byte is 1 (in such a build, a canary of zero is one that was not written). -/
theorem c70_canary_tags_partial (hg : Good g ar) (r : Reach g ro ar calm D h s) {c : Call} {x : Ret} {i : Info} {p u : Nat} {v : BitVec 64} (hok : c.Ok) (hr : c.request = some i)
    (hcan : g.slabCanary = true) (hm : g.mte = true) (hoff : TagsOff g chs) (he : ∀ j, Env calm (chs j)) (hv : ∀ j, (chs j).canary = v) (hc : s.call ro ar t c chs = .ok (s', x))
    (hx : x.block = some p) (h1 : ro.slabStart ≤ p) (h2 : p < ro.slabEnd) (ha : ¬ s.access p) (hu : Usable ro s'.σ p u) (h0 : 0 < u) :
    s'.byte (p + u) = 0#8 ∧ (v >>> 8 ≠ 0#64 → ∀ j, 1 ≤ j → j < 8 → s'.byte (p + u + j) = (v >>> (8 * j)).setWidth 8) ∧
      (v >>> 8 = 0#64 → s'.byte (p + u + 1) = 1#8 ∧ ∀ j, 2 ≤ j → j < 8 → s'.byte (p + u + j) = 0#8) := by
  have hn : ∀ n, c ≠ .realloc p n := fun n e => by rw [e] at hr; cases hr
  refine ⟨(c09_leading_zero hg r hok he hcan hc hx hn h1 h2 hu h0).1, ?_⟩
  obtain ⟨a, cl, i, k, h5, h8, h9, hcv, _, w', ew, I⟩ := canary_drawn hg r hok hr hcan he hv hc hx h1 h2 ha hu h0
  obtain ⟨hro, rfl⟩ := r.roOk hg
  have hT : ∀ j, j < 8 → s'.byte (p + u + j) = byteOf (canaryValue ro.g v) j := fun j hj => by
    obtain ⟨w, w1, C, _⟩ := r.called hg hok he hc
    have ht : ∀ j, tagging ro.g (chs j) = false := fun j => by
      rcases hoff with e | e
      · simp [tagging, e]
      · simp [tagging, e j]
    have hW : WroteCanary ro 0 s'.σ p := by
      unfold Sys.call at hc
      split at hc <;> cases hc
      rename_i h1
      rw [← C.pre.σ] at h1
      exact call_wrote hro C.pre.linked.inv hcan (hg.arena t) hr _ _ _ _ ht h1 p hx
    rw [← ew] at hW h5 hcv
    rcases hW with ⟨j, size, gd, hT⟩ | ⟨a', c', m, k', hT, hcase⟩
    · have hp : p ≠ 0 := by have := hro.lo; omega
      refine (not_small_has hro I h5 (s := size) (g := gd) ⟨hp, j, ?_, hT⟩).elim
      by_contra hlt
      have h2 := I.rt.outside j (by omega)
      rw [hT] at h2
      exact hp h2
    · obtain ⟨rfl, rfl, rfl, rfl⟩ := h5.uniq hro I hT
      have := (hcase h8).2 j hj
      rw [hcv, ew, show p + ro.g.slotSize c' - 8 + j = p + u + j by omega] at this
      exact this
  constructor
  · intro hz j j1 j8
    rw [hT j j8]
    unfold byteOf canaryValue
    simp only [hm, Bool.true_and, decide_eq_true_eq, mask_zero, if_neg hz]
    exact mask_byte v j1 j8
  · intro hz
    have e : canaryValue ro.g v = 0x100#64 := by
      unfold canaryValue
      simp only [hm, Bool.true_and, decide_eq_true_eq, mask_zero, if_pos hz]
    refine ⟨by rw [hT 1 (by omega), e]; rfl, fun j j2 j8 => ?_⟩
    rw [hT j j8, e]
    have : ∀ j, j < 8 → 2 ≤ j → byteOf 0x100#64 j = 0#8 := by decide
    exact this j j8 j2

end

/-- The first block of a slab, in a build with memory tagging, while tagging is off (it was on before); with a random number whose canary would be zero. -/
example : ∃ h s s1, Reach (mtCfg true) (mtRo true) (fun t => t % 4) false anyClient h s ∧ (mtCfg true).slabCanary = true ∧ (mtCfg true).mte = true ∧
    TagsOff (mtCfg true) (fun _ => { exAt 0 with canary := 0x42#64, memtag := false }) ∧ (∀ _ : Nat, Env false { exAt 0 with canary := 0x42#64, memtag := false }) ∧
    s.call (mtRo true) (fun t => t % 4) 0 (.calloc 10 10) (fun _ => { exAt 0 with canary := 0x42#64, memtag := false }) = .ok (s1, .ptr exA) ∧
    (mtRo true).slabStart ≤ exA ∧ exA < (mtRo true).slabEnd ∧ ¬ s.access exA ∧ Usable (mtRo true) s1.σ exA 104 := by
  obtain ⟨h, s, h1, h2⟩ := mt_any (tag := true) (calm := false) [.call 0 (.malloc 200) 0]
    (fun _ s => decide (s.σ.vm.prot (exA / PAGE) = .none) &&
      match s.call (mtRo true) (fun t => t % 4) 0 (.calloc 10 10) (fun _ => { exAt 0 with canary := 0x42#64, memtag := false }) with
        | .ok (s1, .ptr p) => decide (p = exA) && decide (usableB (mtRo true) s1.σ exA = some 104)
        | _ => false) (by decide +kernel)
  rw [Bool.and_eq_true, decide_eq_true_eq] at h2
  obtain ⟨h2, h3⟩ := h2
  split at h3 <;> try cases h3
  rename_i s2 p2 e2
  simp only [Bool.and_eq_true, decide_eq_true_eq] at h3
  obtain ⟨rfl, h3⟩ := h3
  refine ⟨h, s, s2, h1, rfl, rfl, Or.inr fun _ => rfl, fun _ => exAt_env _ 0, e2, by decide, by decide, fun hn => ?_, usableB_usable h3⟩
  rw [Sys.access, h2] at hn
  cases hn

end HM
