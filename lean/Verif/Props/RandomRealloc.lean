import Verif.Props.RandomCanary

/-! Random guards and canaries (C70): blocks that `realloc` moves. -/

namespace HM

section
variable {α β : Type} {R : Choice → Prop} {σ : St} {tl : Tl}

theorem Prog.EndsIf.both {P : Prog α} {Q Q' : St → Tl → α → Prop} (h : P.EndsIf R σ tl Q) (h' : P.EndsIf R σ tl Q') :
    P.EndsIf R σ tl fun σ tl a => Q σ tl a ∧ Q' σ tl a := fun chs σ' tl' a hr e => ⟨h chs σ' tl' a hr e, h' chs σ' tl' a hr e⟩

/-- The records of large blocks and the metadata of slabs are the same. -/
def SameMeta (σ σ' : St) : Prop := σ'.rt = σ.rt ∧ σ'.sc = σ.sc

theorem SameMeta.bind (hR : ∃ ch, R ch) {P : Prog α} {k : α → Prog β} (h : P.EndsIf R σ tl fun σ' _ _ => SameMeta σ σ')
    (hk : ∀ a σ1 tl1, (k a).EndsIf R σ1 tl1 fun σ' _ _ => SameMeta σ1 σ') : (P >>= k).EndsIf R σ tl fun σ' _ _ => SameMeta σ σ' :=
  Prog.EndsIf.bind hR (h.weaken fun σ1 tl1 a h1 => (hk a σ1 tl1).weaken fun _ _ _ h2 => ⟨h2.1.trans h1.1, h2.2.trans h1.2⟩)

theorem SameMeta.ret {a : α} : (Prog.ret a).EndsIf R σ tl fun σ' _ _ => SameMeta σ σ' := Prog.EndsIf.ret ⟨rfl, rfl⟩

theorem sysCall_same {b : Bool} {f : Choice → Vm → Res (Vm × Bool)} : (sysCall b f).EndsIf R σ tl fun σ' _ _ => SameMeta σ σ' := by
  refine Prog.EndsIf.act fun ch σ1 tl1 _ _ e1 => Prog.EndsIf.ret ?_
  split at e1 <;> cases e1
  exact ⟨rfl, rfl⟩

theorem memCopy_same {d s n : Nat} : (memCopy d s n).EndsIf R σ tl fun σ' _ _ => SameMeta σ σ' := by
  refine Prog.EndsIf.act fun ch σ1 tl1 _ _ e1 => Prog.EndsIf.ret ?_
  split at e1 <;> cases e1
  exact ⟨rfl, rfl⟩

theorem sealMeta_same : sealMeta.EndsIf R σ tl fun σ' _ _ => SameMeta σ σ' := by
  refine Prog.EndsIf.act fun ch σ1 tl1 _ _ e1 => Prog.EndsIf.ret ?_
  cases e1
  exact ⟨rfl, rfl⟩

theorem deallocatePages_same (hR : ∃ ch, R ch) {p n gd : Nat} : (deallocatePages p n gd).EndsIf R σ tl fun σ' _ _ => SameMeta σ σ' := by
  unfold deallocatePages
  refine SameMeta.bind hR sysCall_same fun a σ1 tl1 => ?_
  split
  · exact SameMeta.bind hR sysCall_same fun _ _ _ => SameMeta.ret
  · exact SameMeta.ret

theorem quarantineRegion_same {ro : Ro} {x : Nat × Nat} : (quarantineRegion ro x).EndsIf R σ tl fun σ' _ _ => SameMeta σ σ' := by
  refine critical_endsIf fun ch σ1 e1 o _ hf tl1 => ?_
  have h1 : SameMeta σ (pushRegionRandom ro.g ch σ x).1 := by unfold pushRegionRandom; split <;> exact ⟨rfl, rfl⟩
  simp only at hf
  split at hf <;> cases hf
  · exact h1
  · generalize pushRegionRandom ro.g ch σ x = r at h1 ⊢
    unfold pushRegionQueue
    split
    · exact h1
    · exact ⟨h1.1, h1.2⟩

theorem quarantinePages_same (hR : ∃ ch, R ch) {ro : Ro} {p n gd : Nat} :
    (quarantineDeallocatePages ro p n gd).EndsIf R σ tl fun σ' _ _ => SameMeta σ σ' := by
  unfold quarantineDeallocatePages
  split
  · exact deallocatePages_same hR
  · refine SameMeta.bind hR sysCall_same fun b σ1 tl1 => ?_
    have key : ∀ σ1 tl1, (quarantineRegion ro (p - gd, n + gd * 2) >>= fun o => match o with
        | none => (return () : Prog Unit)
        | some t => do
          let _ ← sysUnmap t.1 t.2
          return ()).EndsIf R σ1 tl1 fun σ' _ _ => SameMeta σ1 σ' := fun σ1 tl1 => by
      refine SameMeta.bind hR quarantineRegion_same fun o σ2 tl2 => ?_
      cases o with
      | none => exact SameMeta.ret
      | some t => exact SameMeta.bind hR sysCall_same fun _ _ _ => SameMeta.ret
    split
    · exact SameMeta.bind hR sysCall_same fun _ σ2 tl2 => key σ2 tl2
    · exact key σ1 tl1

/-- The records of all large blocks apart from `old` are kept, and the canaries of all slabs are. -/
structure MetaKept (old : Nat) (σ σ' : St) : Prop where
  rt : ∀ r : RegionMeta, r.p ≠ old → σ.rt.Has r → σ'.rt.Has r
  can : ∀ a c m, ((σ'.sc a c).slabs m).canary = ((σ.sc a c).slabs m).canary

theorem SameMeta.kept {old : Nat} {σ σ' : St} (h : SameMeta σ σ') : MetaKept old σ σ' :=
  ⟨fun r _ hr => by rw [h.1]; exact hr, fun a c m => by rw [h.2]⟩

theorem MetaKept.trans {old : Nat} {σ σ1 σ2 : St} (h : MetaKept old σ σ1) (h' : MetaKept old σ1 σ2) : MetaKept old σ σ2 :=
  ⟨fun r hn hr => h'.rt r hn (h.rt r hn hr), fun a c m => (h'.can a c m).trans (h.can a c m)⟩

theorem MetaKept.bind (hR : ∃ ch, R ch) {old : Nat} {P : Prog α} {k : α → Prog β} (h : P.EndsIf R σ tl fun σ' _ _ => MetaKept old σ σ')
    (hk : ∀ a σ1 tl1, (k a).EndsIf R σ1 tl1 fun σ' _ _ => MetaKept old σ1 σ') : (P >>= k).EndsIf R σ tl fun σ' _ _ => MetaKept old σ σ' :=
  Prog.EndsIf.bind hR (h.weaken fun σ1 tl1 a h1 => (hk a σ1 tl1).weaken fun _ _ _ h2 => h1.trans h2)

theorem removeRegion_kept {ro : Ro} {G : Gh} (hi : GInv ro ⟨σ, G⟩) {p : Nat} {x : Option Nat} {msg : String} :
    (removeRegion ro p x msg).EndsIf R σ tl fun σ' _ _ => MetaKept p σ σ' := by
  refine critical_endsIf fun ch σ1 e1 o _ hf tl1 => ?_
  rcases lookupRegion_spec hi p with ⟨i, r, h1, h2, h3, h4, h5⟩ | ⟨h1, _⟩
  · replace h1 : lookupRegion σ.rt p = _ := h1
    simp only [h1] at hf
    split at hf
    · cases hf
    · obtain ⟨t', g1, _, g3⟩ := regionsDelete_spec hi.rt h2 (by rw [h3]; exact h5.1)
      replace g1 : regionsDelete hashPage σ.rt i = _ := g1
      simp only [g1] at hf
      cases hf
      exact ⟨fun q hq hh => (g3 q).mpr ⟨hh, fun e => hq (by rw [e, h3, h4])⟩, fun _ _ _ => rfl⟩
  · replace h1 : lookupRegion σ.rt p = _ := h1
    simp only [h1] at hf
    cases hf

theorem deallocateLarge_kept (hR : ∃ ch, R ch) {ro : Ro} {G : Gh} (hi : GInv ro ⟨σ, G⟩) {p : Nat} {x : Option Nat} :
    (deallocateLarge ro p x).EndsIf R σ tl fun σ' _ _ => MetaKept p σ σ' := by
  unfold deallocateLarge
  refine Prog.EndsIf.bind hR (Prog.EndsIf.act fun ch σ1 tl1 _ _ e1 => Prog.EndsIf.ret ?_)
  cases e1
  exact MetaKept.bind hR (removeRegion_kept hi) fun r σ1 tl1 => (quarantinePages_same hR).weaken fun _ _ _ h => h.kept

theorem smallFree_kept {ro : Ro} (hro : RoOk ro) {G : Gh} (hi : GInv ro ⟨σ, G⟩) {p : Nat} (hp : p < W64) {x : Option Nat} :
    (smallFree ro p x).EndsIf R σ tl fun σ' _ _ => MetaKept p σ σ' := by
  refine critical_endsIf fun ch σ1 e1 o _ hf tl1 => ?_
  simp only at hf
  split at hf
  · cases hf
  · rename_i hcl
    generalize (ro.sizeClassOf p).1 = a at hf hcl
    generalize (ro.sizeClassOf p).2 = c at hf hcl
    have ha : a < ro.g.nArena := by omega
    have hc : c < nClasses ro.g := by omega
    obtain ⟨P, E, F, hin⟩ := hi.cls a c ha hc
    have sp := deallocateSmall_spec (p := p) (expected := x) (ch := ch) (e := tl.errno) hro.valid hro.freeQ (hro.base ha hc) hc hp hin (hi.clsVm a c ha hc)
    split at hf <;> cases hf
    rename_i hs
    rw [hs] at sp
    obtain ⟨_, i, k, _, _, _, _, _, D⟩ := sp
    refine ⟨fun _ _ h => h, fun a' c' m => ?_⟩
    simp only
    split
    · rename_i e; rw [e.1, e.2]; exact D.canary m
    · rfl

/-- Copying memory keeps the invariant. -/
theorem memCopy_ginv {ro : Ro} {G : Gh} (hi : GInv ro ⟨σ, G⟩) {d s n : Nat} :
    (memCopy d s n).EndsIf R σ tl fun σ' _ _ => SameMeta σ σ' ∧ GInv ro ⟨σ', G⟩ := by
  refine Prog.EndsIf.act fun ch σ1 tl1 _ _ e1 => Prog.EndsIf.ret ?_
  split at e1 <;> cases e1
  rename_i hacc
  rw [Bool.and_eq_true] at hacc
  refine ⟨⟨rfl, rfl⟩, hi.cls, fun a c ha hc => ?_, hi.gaps, hi.rt, hi.reg, hi.slabOwn, hi.regOwn, hi.regRw, hi.regLo, hi.regHi, hi.qrOwn, hi.qqOwn, hi.qrOk, hi.qqOk, hi.qi,
    hi.mapped, hi.blk, hi.eff, hi.cache, hi.qprot⟩
  obtain ⟨P, E, F, hin⟩ := hi.cls a c ha hc
  refine SCVm.congrVm hc hin (hi.clsVm a c ha hc) (fun x _ => rfl) (fun y _ hy => ?_)
  show (if inRange d n y then _ else σ.vm.mem y) = _
  split
  · rename_i hr
    have hn : 0 < n := by unfold inRange at hr; omega
    rw [(Vm.accessible_iff hn).mp hacc.1 y hr] at hy
    cases hy
  · rfl
end

section
variable {R : Choice → Prop} {ro : Ro} {w : World} {tl : Tl} {Φ : St → Nat → Prop}

/-- What holds of the block after the allocation within `realloc`, and what happens to it until the end of `realloc`. -/
def MovedBy (ro : Ro) (Φ : St → Nat → Prop) (old : Nat) (σ' : St) (o : Option Nat) : Prop :=
  ∀ q, o = some q → q ≠ old → ∃ σ1 G, GInv ro ⟨σ1, G⟩ ∧ Φ σ1 q ∧ MetaKept old σ1 σ'

/-- `allocate` keeps the invariant. -/
theorem allocate_ginv (hro : RoOk ro) (hi : GInv ro w) (hRf : ∀ ch, R ch → Fair .seq w.G.env ch) (hu : tl.unsealed = true) {a n : Nat} (ha : a < ro.g.nArena) (hn : n < W64) :
    (allocate ro a n).EndsIf R w.σ tl fun σ' _ o => ∀ q, o = some q → ∃ G, GInv ro ⟨σ', G⟩ ∧ (n ≤ ro.g.maxSlab → ∃ b c i k, IsSmall ro σ' q b c i k) := by
  intro chs σ' tl' o hr e q hq
  have h := (allocate_wp (m := .seq) (t := 0) (F := fun _ _ _ => True) hro (fun _ _ _ _ => trivial) (fun _ _ _ => trivial) hi (fun _ => hu) ha hn).run hi
    (chs := chs) (fun j => hRf _ (hr j))
  rw [e] at h
  obtain ⟨G', h1, _, h2⟩ := h
  subst hq
  refine ⟨G', h1.inv, fun hn => ?_⟩
  rcases h2 with ⟨_, h2⟩ | ⟨h2, _⟩
  · obtain ⟨i, k, h3, _⟩ := h2.small
    exact ⟨_, _, i, k, h3⟩
  · omega

theorem reallocCopy_moved (hro : RoOk ro) (hi : GInv ro w) (hR : ∃ ch, R ch) (hRf : ∀ ch, R ch → Fair .seq w.G.env ch) (hu : tl.unsealed = true) {a n old m : Nat}
    (ha : a < ro.g.nArena) (hn : n < W64) (ho : old < W64)
    (hΦ : (allocate ro a n).EndsIf R w.σ tl fun σ' _ o => ∀ q, o = some q → Φ σ' q) :
    (reallocCopy ro a old m n).EndsIf R w.σ tl fun σ' _ o => MovedBy ro Φ old σ' o := by
  unfold reallocCopy
  refine Prog.EndsIf.bind hR ((hΦ.both (allocate_ginv hro hi hRf hu ha hn)).weaken fun σ1 tl1 o h => ?_)
  cases o with
  | none => exact Prog.EndsIf.bind hR (sealMeta_same.weaken fun _ _ _ _ => Prog.EndsIf.ret fun q e => by cases e)
  | some new =>
    obtain ⟨h1, h2⟩ := h
    obtain ⟨G, h3, _⟩ := h2 new rfl
    have fin : ∀ σ2 tl2, MetaKept old σ1 σ2 → (sealMeta >>= fun _ => (return some new : Prog (Option Nat))).EndsIf R σ2 tl2 fun σ' _ o => MovedBy ro Φ old σ' o := fun σ2 tl2 k =>
      Prog.EndsIf.bind hR (sealMeta_same.weaken fun σ3 _ _ s3 => Prog.EndsIf.ret fun q e _ => by
        cases e
        exact ⟨σ1, G, h3, h1 _ rfl, k.trans s3.kept⟩)
    refine Prog.EndsIf.bind hR ((memCopy_ginv h3).weaken fun σ2 tl2 _ s2 => ?_)
    simp only
    split
    · exact Prog.EndsIf.bind hR ((smallFree_kept hro s2.2 ho).weaken fun σ3 tl3 _ k3 => fin σ3 tl3 (s2.1.kept.trans k3))
    · exact Prog.EndsIf.bind hR ((deallocateLarge_kept hR s2.2).weaken fun σ3 tl3 _ k3 => fin σ3 tl3 (s2.1.kept.trans k3))

theorem reallocMove_moved (hro : RoOk ro) (hi : GInv ro w) (hR : ∃ ch, R ch) (hRf : ∀ ch, R ch → Fair .seq w.G.env ch) (hu : tl.unsealed = true) {a n old m gd : Nat}
    (ha : a < ro.g.nArena) (hn : n < W64) (hl : ro.g.maxSlab < n)
    (hΦ : (allocate ro a n).EndsIf R w.σ tl fun σ' _ o => ∀ q, o = some q → Φ σ' q) :
    (reallocMove ro old m gd n).EndsIf R w.σ tl fun σ' _ o => MovedBy ro Φ old σ' o := by
  have hg := allocate_ginv hro hi hRf hu ha hn
  unfold allocate at hΦ hg
  rw [if_neg (by omega)] at hΦ hg
  unfold reallocMove
  refine Prog.EndsIf.bind hR ((hΦ.both hg).weaken fun σ1 tl1 o h => ?_)
  cases o with
  | none => exact Prog.EndsIf.bind hR (sealMeta_same.weaken fun _ _ _ _ => Prog.EndsIf.ret fun q e => by cases e)
  | some new =>
    obtain ⟨h1, h2⟩ := h
    obtain ⟨G, h3, _⟩ := h2 new rfl
    have fin : ∀ σ2 tl2, MetaKept old σ1 σ2 → (sealMeta >>= fun _ => (return some new : Prog (Option Nat))).EndsIf R σ2 tl2 fun σ' _ o => MovedBy ro Φ old σ' o := fun σ2 tl2 k =>
      Prog.EndsIf.bind hR (sealMeta_same.weaken fun σ3 _ _ s3 => Prog.EndsIf.ret fun q e _ => by
        cases e
        exact ⟨σ1, G, h3, h1 _ rfl, k.trans s3.kept⟩)
    refine Prog.EndsIf.bind hR ((removeRegion_kept h3).weaken fun σ2 tl2 _ k2 => ?_)
    refine Prog.EndsIf.bind hR (sysCall_same.weaken fun σ3 tl3 b s3 => ?_)
    split
    · refine Prog.EndsIf.bind hR (memCopy_same.weaken fun σ4 tl4 _ s4 => ?_)
      refine Prog.EndsIf.bind hR ((deallocatePages_same hR).weaken fun σ5 tl5 _ s5 => ?_)
      exact fin σ5 tl5 (((k2.trans s3.kept).trans s4.kept).trans s5.kept)
    · refine Prog.EndsIf.bind hR (sysCall_same.weaken fun σ4 tl4 _ s4 => ?_)
      refine Prog.EndsIf.bind hR (sysCall_same.weaken fun σ5 tl5 _ s5 => ?_)
      exact fin σ5 tl5 (((k2.trans s3.kept).trans s4.kept).trans s5.kept)

theorem reallocShrink_moved (hR : ∃ ch, R ch) {σ : St} {n old m gd : Nat} :
    (reallocShrink ro old m gd n).EndsIf R σ tl fun σ' _ o => MovedBy ro Φ old σ' o := by
  unfold reallocShrink
  refine Prog.EndsIf.bind hR fun _ σ1 tl1 b _ _ => ?_
  simp only
  split
  · exact Prog.EndsIf.bind hR fun _ _ _ _ _ _ => Prog.EndsIf.ret fun q e => by cases e
  · exact Prog.EndsIf.bind hR fun _ _ _ _ _ _ => Prog.EndsIf.bind hR fun _ _ _ _ _ _ => Prog.EndsIf.bind hR fun _ _ _ _ _ _ =>
      Prog.EndsIf.ret fun q e hne => by cases e; exact absurd rfl hne

theorem findRegion_same {σ : St} {p : Nat} {msg : String} : (findRegion ro p msg).EndsIf R σ tl fun σ' tl' _ => σ' = σ ∧ tl'.unsealed = tl.unsealed := by
  refine Prog.EndsIf.act fun ch σ1 tl1 b _ e1 => Prog.EndsIf.ret ?_
  split at e1
  · cases e1
  · split at e1 <;> cases e1
    rename_i h1
    simp only at h1
    split at h1 <;> cases h1
    exact ⟨rfl, rfl⟩

theorem unseal_endsIf {β : Type} (hR : ∃ ch, R ch) {k : Unit → Prog β} {σ : St} {Q : St → Tl → β → Prop}
    (h : ∀ tl', tl'.unsealed = true → (k ()).EndsIf R σ tl' Q) : (unsealMeta >>= k).EndsIf R σ tl Q := by
  refine Prog.EndsIf.bind hR (Prog.EndsIf.act fun ch σ1 tl1 _ _ e1 => Prog.EndsIf.ret ?_)
  cases e1
  exact h _ rfl

theorem reallocSized_moved (hro : RoOk ro) (hi : GInv ro w) (hR : ∃ ch, R ch) (hRf : ∀ ch, R ch → Fair .seq w.G.env ch) {a n old : Nat}
    (ha : a < ro.g.nArena) (hn : n < W64) (ho : old < W64)
    (hΦ : ∀ tl', tl'.unsealed = true → (allocate ro a n).EndsIf R w.σ tl' fun σ' _ o => ∀ q, o = some q → Φ σ' q) :
    (reallocSized ro a old n).EndsIf R w.σ tl fun σ' _ o => MovedBy ro Φ old σ' o := by
  unfold reallocSized
  split
  · simp only
    split
    · exact Prog.EndsIf.ret fun q e hne => by cases e; exact absurd rfl hne
    · exact unseal_endsIf hR fun tl1 hu => reallocCopy_moved hro hi hR hRf hu ha hn ho (hΦ tl1 hu)
  · unfold reallocLarge
    refine unseal_endsIf hR fun tl1 hu => Prog.EndsIf.bind hR (findRegion_same.weaken fun σ2 tl2 r h2 => ?_)
    obtain ⟨rfl, h2⟩ := h2
    rw [hu] at h2
    simp only
    split
    · exact Prog.EndsIf.bind hR fun _ _ _ _ _ _ => Prog.EndsIf.ret fun q e hne => by cases e; exact absurd rfl hne
    · split
      · exact reallocShrink_moved hR
      · split
        · rename_i h3
          exact reallocMove_moved hro hi hR hRf h2 ha hn h3.1 (hΦ tl2 h2)
        · exact reallocCopy_moved hro hi hR hRf h2 ha hn ho (hΦ tl2 h2)

theorem hRealloc_moved (hro : RoOk ro) (hi : GInv ro w) (hR : ∃ ch, R ch) (hRf : ∀ ch, R ch → Fair .seq w.G.env ch) {a n old : Nat}
    (ha : a < ro.g.nArena) (hn : n < W64) (ho : old < W64)
    (hΦ : ∀ m tl', m < W64 → tl'.unsealed = true → (allocate ro a m).EndsIf R w.σ tl' fun σ' _ o => ∀ q, o = some q → Φ σ' q) :
    (hRealloc ro a old n).EndsIf R w.σ tl fun σ' _ o => MovedBy ro Φ old σ' o := by
  have hadj := adjust_lt (g := ro.g) hn
  unfold hRealloc
  simp only
  split
  · unfold alloc
    refine unseal_endsIf hR fun tl1 hu => Prog.EndsIf.bind hR (((hΦ _ tl1 hadj hu).both (allocate_ginv hro hi hRf hu ha hadj)).weaken fun σ1 tl2 o h => ?_)
    refine Prog.EndsIf.bind hR (sealMeta_same.weaken fun σ3 _ _ s3 => Prog.EndsIf.ret fun q e _ => ?_)
    subst e
    obtain ⟨G, h3, _⟩ := h.2 q rfl
    exact ⟨σ1, G, h3, h.1 _ rfl, s3.kept⟩
  · split
    · split
      · exact Prog.EndsIf.bind hR fun _ _ _ _ _ _ => Prog.EndsIf.ret fun q e => by cases e
      · rename_i hz
        exact reallocSized_moved hro hi hR hRf ha (getLargeSizeClass_ok ro.g hadj hz).2.1 ho fun tl' => hΦ _ tl' (getLargeSizeClass_ok ro.g hadj hz).2.1
    · exact reallocSized_moved hro hi hR hRf ha hadj ho fun tl' => hΦ _ tl' hadj
end

section
variable {g : Cfg} {ro : Ro} {ar : Nat → Nat} {calm : Bool} {D : Client} {h : List Ev} {s s' : Sys} {t : Nat} {chs : Nat → Choice}

/-- The state in which `realloc` has made its allocation, in a call that moves the block. -/
theorem Called.moved {w w' : World} {old n p : Nat} {x : Ret} {Φ : St → Nat → Prop} {R : Choice → Prop} (hro : RoOk ro) (ha : ar t < ro.g.nArena)
    (C : Called ro ar calm h s t (.realloc old n) s' x w w') (htg : w.G.tags = none) (hok : (Call.realloc old n).Ok) (he : ∀ j, Env calm (chs j) ∧ R (chs j))
    (hc : s.call ro ar t (.realloc old n) chs = .ok (s', x)) (hx : x.block = some p) (hne : p ≠ old)
    (hΦ : ∀ m tl', m < W64 → tl'.unsealed = true →
      (allocate ro (ar t) m).EndsIf (fun ch => Env calm ch ∧ R ch) w.σ tl' fun σ' _ o => ∀ q, o = some q → Φ σ' q) :
    ∃ σ1 G, GInv ro ⟨σ1, G⟩ ∧ Φ σ1 p ∧ MetaKept old σ1 s'.σ := by
  unfold Sys.call at hc
  split at hc <;> cases hc
  rename_i h1
  rw [← C.pre.σ] at h1
  have hR : ∃ ch, Env calm ch ∧ R ch := ⟨_, he 0⟩
  have hRf : ∀ ch, Env calm ch ∧ R ch → Fair .seq w.G.env ch := fun ch hh => Env.fair (by rw [show w.G.env.1 = calm from C.pre.calm]; exact hh.1)
    fun b e => by rw [show w.G.env.2 = none from htg] at e; cases e
  unfold Call.prog at h1
  have h2 := Prog.EndsIf.bind hR ((hRealloc_moved (tl := s.tl t) hro C.pre.linked.inv hR hRf ha hok.2 hok.1 hΦ).weaken fun σ2 tl2 o hm =>
    Prog.EndsIf.ret (R := fun ch => Env calm ch ∧ R ch) (σ := σ2) (tl := tl2) (a := retPtr o) (Q := fun σ' _ x => ∀ q, x.block = some q → q ≠ old → ∃ σ1 G, GInv ro ⟨σ1, G⟩ ∧ Φ σ1 q ∧ MetaKept old σ1 σ')
      fun q e hq => hm q (block_retPtr e) hq)
  exact h2 chs _ _ _ he h1 p hx hne

/-- C70, partial: for `realloc`. If `realloc` moves a block, or is called with a null pointer, and returns a large block `p` (a block outside the region divided among the size
classes), of usable size `u`, then the bounded random number `v` drawn by the call decides how long the guards are: the `k` pages before the block and the `k` pages after the
last page of the block are inaccessible, where `k` is `1 + v % m` and `m` is the number of whole pages of the block divided by the configured divisor (at least 1). -/
theorem c70_realloc_guards_partial (hg : Good g ar) (r : Reach g ro ar calm D h s) {old n p u v : Nat} {x : Ret} (hok : (Call.realloc old n).Ok)
    (he : ∀ j, Env calm (chs j)) (hv : ∀ j, (chs j).guard = v) (hc : s.call ro ar t (.realloc old n) chs = .ok (s', x)) (hx : x.block = some p) (hne : p ≠ old)
    (hl : p < ro.slabStart ∨ ro.slabEnd ≤ p) (hu : Usable ro s'.σ p u) :
    let k := 1 + v % max 1 (u / 4096 / g.guardSizeDivisor)
    let e := p + (u + 4095) / 4096 * 4096
    k * 4096 ≤ p ∧ (∀ x, p ≤ x + k * 4096 → x < p → s'.guarded x) ∧ (∀ x, p ≤ x → x < e → s'.access x) ∧
      (∀ x, e ≤ x → x < e + k * 4096 → s'.guarded x) := by
  obtain ⟨hro, rfl⟩ := r.roOk hg
  obtain ⟨w, w', ⟨C, htg⟩, _⟩ := r.called' hg hok he hc
  have I := C.post.linked.inv
  have H := C.res.handed hro hok hx (fun n' e => by injection e with e1 _; exact hne e1.symm)
  rw [← C.post.σ] at hu
  replace hu := hu.is hro C.post.linked ((C.post.linked.blk p).mp H.blk)
  obtain ⟨σ1, G, i1, hΦ, kept⟩ := C.moved (R := fun ch => ch.guard = v)
    (Φ := fun σ1 q => (∃ b c i k, IsSmall ro σ1 q b c i k) ∨
      ∃ i m, σ1.rt.tab i = ⟨q, getLargeSizeClass ro.g m, (v % max 1 (getLargeSizeClass ro.g m / 4096 / ro.g.guardSizeDivisor) + 1) * 4096⟩)
    hro (hg.arena t) htg hok (fun j => ⟨he j, hv j⟩) hc hx hne fun m tl' hm hun => by
      by_cases hsm : m ≤ ro.g.maxSlab
      · refine (allocate_ginv hro C.pre.linked.inv (fun ch hh => Env.fair (by rw [show w.G.env.1 = calm from C.pre.calm]; exact hh.1)
          fun b e => by rw [show w.G.env.2 = none from htg] at e; cases e) hun (hg.arena t) hm).weaken fun σ2 tl2 o h2 q e => ?_
        obtain ⟨_, _, h3⟩ := h2 q e
        exact Or.inl (h3 hsm)
      · intro chs2 σ2 tl2 o hr e q hq
        have e0 : regionDraw chs2 v = chs2 := by
          funext j
          unfold regionDraw
          rw [← (hr j).2]
        unfold allocate at e
        rw [if_neg hsm] at e
        have h2 := allocateLarge_left (ro := ro) (n := m) (v := v) (σ := w.σ) (tl := tl') chs2 σ2 tl2 o (by rw [e0]; exact e)
        obtain ⟨⟨i, h3⟩, _⟩ := h2 q hq
        exact Or.inr ⟨i, m, h3⟩
  have hhas : ∃ m, w'.σ.rt.Has ⟨p, getLargeSizeClass ro.g m, (v % max 1 (getLargeSizeClass ro.g m / 4096 / ro.g.guardSizeDivisor) + 1) * 4096⟩ := by
    rcases hΦ with ⟨b, c, i, k, hs⟩ | ⟨i, m, hm⟩
    · have h4 := hs.inSlab (w := ⟨σ1, G⟩) hro i1
      unfold Ro.inSlab at h4
      simp only [Bool.and_eq_true, decide_eq_true_eq] at h4
      omega
    · have hp : p ≠ 0 := by
        rintro rfl
        rcases hu with ⟨a, c, i, k, h3, _⟩ | ⟨gd, h3⟩
        · have h4 := h3.inSlab hro I
          unfold Ro.inSlab at h4
          simp only [Bool.and_eq_true, decide_eq_true_eq] at h4
          omega
        · exact h3.1 rfl
      refine ⟨m, ?_⟩
      rw [C.post.σ]
      refine kept.rt _ hne ⟨hp, i, ?_, hm⟩
      by_contra hlt
      have h2 := i1.rt.outside i (by show σ1.rt.total ≤ i; omega)
      replace h2 : (σ1.rt.tab i).p = 0 := h2
      rw [hm] at h2
      exact hp h2
  obtain ⟨m, hhas⟩ := hhas
  obtain rfl := hu.uniq hro I (Or.inr ⟨_, hhas⟩)
  clear hΦ
  generalize getLargeSizeClass ro.g m = u at hhas hu ⊢
  have RR := I.reg _ hhas
  have r1 := RR.pmod
  have r4 := RR.lo
  simp only at r1 r4
  have eE := C.post.linked.eff p
  simp only
  rw [Nat.add_comm 1]
  have e0 : (u + 4095) / 4096 * 4096 = pageUp u := rfl
  rw [e0]
  have e1 : pageUp u % 4096 = 0 := Nat.mul_mod_left _ _
  have e2 : u ≤ pageUp u ∧ pageUp u ≤ u + 4095 := by unfold pageUp; omega
  generalize v % max 1 (u / 4096 / ro.g.guardSizeDivisor) + 1 = k at hhas r4 ⊢
  have hv : w'.σ.vm = s'.σ.vm := by rw [C.post.σ]
  replace r4 : k * 4096 + 4096 ≤ p := r4
  clear C he hc hu
  refine ⟨le_trans (Nat.le_add_right _ _) r4, fun x k1 k2 => ?_, fun x k1 k2 => ?_, fun x k1 k2 => ?_⟩
  · show s'.σ.vm.prot _ = _
    rw [← hv]
    have h1 : inPages (p - k * 4096) (k * 4096) (x / 4096) := by unfold inPages; omega
    exact I.regLo _ _ hhas h1
  · show s'.σ.vm.prot _ = _
    rw [← hv]
    refine I.regRw _ _ hhas (inPages_of_pageUp RR.pmod ?_)
    rw [effSize_eq (r := ⟨p, u, k * 4096⟩) eE]; exact ⟨k1, k2⟩
  · show s'.σ.vm.prot _ = _
    rw [← hv]
    have h1 : inPages (p + pageUp u) (k * 4096) (x / 4096) := by
      generalize pageUp u = q at *
      unfold inPages; omega
    refine I.regHi _ _ hhas ?_
    rw [effSize_eq (r := ⟨p, u, k * 4096⟩) eE]
    exact h1

/-- C70, partial: for `realloc`, and without memory tagging. Suppose canaries are configured and the build has no memory tagging. If `realloc` moves a block, or is called with a
null pointer, and returns a small block `p`, of usable size `u > 0`, whose memory was not accessible before the call, then the canary after the block is the 64-bit random number
`v` drawn by the call, with the first byte replaced by zero. -/
theorem c70_realloc_canary_partial (hg : Good g ar) (r : Reach g ro ar calm D h s) {old n p u : Nat} {x : Ret} {v : BitVec 64} (hok : (Call.realloc old n).Ok)
    (hcan : g.slabCanary = true) (hm : g.mte = false) (he : ∀ j, Env calm (chs j)) (hv : ∀ j, (chs j).canary = v) (hc : s.call ro ar t (.realloc old n) chs = .ok (s', x))
    (hx : x.block = some p) (hne : p ≠ old) (h1 : ro.slabStart ≤ p) (h2 : p < ro.slabEnd) (ha : ¬ s.access p) (hu : Usable ro s'.σ p u) (h0 : 0 < u) :
    s'.byte (p + u) = 0#8 ∧ ∀ j, 1 ≤ j → j < 8 → s'.byte (p + u + j) = (v >>> (8 * j)).setWidth 8 := by
  have hn : ∀ n', Call.realloc old n ≠ .realloc p n' := fun n' e => by injection e with e1 _; exact hne e1.symm
  refine ⟨(c09_leading_zero hg r hok he hcan hc hx hn h1 h2 hu h0).1, fun j j1 j8 => ?_⟩
  obtain ⟨hro, rfl⟩ := r.roOk hg
  obtain ⟨w, w', ⟨C, htg⟩, _⟩ := r.called' hg hok he hc
  have I := C.post.linked.inv
  have H := C.res.handed hro hok hx hn
  rw [← C.post.σ] at hu
  replace hu := hu.is hro C.post.linked ((C.post.linked.blk p).mp H.blk)
  obtain ⟨a, cl, i, k, h5, h6, h7⟩ := hu.small hro I h1 h2
  obtain ⟨h8, h9⟩ := h6 (by omega)
  have h10 : ro.g.canarySize = 8 := by unfold Cfg.canarySize; rw [hcan]; rfl
  have h11 := (classGeo ro.g h5.2.1).size_ge
  have h13 : CanaryFine ro.g ((w'.σ.sc a cl).slabs i).canary (p + ro.g.slotSize cl - 8) w'.σ.vm := by
    by_contra h13
    exact H.canary ⟨hcan, a, cl, i, k, h5, h8, h13⟩
  have h12 := h13.value hm j8
  obtain ⟨σ1, G, i1, hT, kept⟩ := C.moved (R := fun ch => ch.canary = v) (Φ := fun σ1 q => Took ro v w.σ σ1 q)
    hro (hg.arena t) htg hok (fun j => ⟨he j, hv j⟩) hc hx hne fun m tl' _ _ => fun chs2 σ2 tl2 o hr e =>
      allocate_took hro C.pre.linked.inv hcan (hg.arena t) chs2 σ2 tl2 o (fun j => (hr j).2) e
  have hcv : ((w'.σ.sc a cl).slabs i).canary = canaryValue ro.g v := by
    rcases hT with ⟨j, size, gd, hT⟩ | ⟨a', c', m, k', hT, hcase⟩
    · have hp : p ≠ 0 := by have := hro.lo; omega
      refine (not_small_has hro I h5 (s := size) (g := gd) ?_).elim
      rw [C.post.σ]
      refine kept.rt _ hne ⟨hp, j, ?_, hT⟩
      by_contra hlt
      have h2 := i1.rt.outside j (by show σ1.rt.total ≤ j; omega)
      replace h2 : (σ1.rt.tab j).p = 0 := h2
      rw [hT] at h2
      exact hp h2
    · have e1 := h5.cls hro I
      have e2 := IsSmall.cls (w := ⟨σ1, G⟩) hro i1 hT
      rw [e1] at e2
      simp only [Prod.mk.injEq] at e2
      obtain ⟨rfl, rfl⟩ := e2
      obtain ⟨rfl, rfl⟩ := slotAddr_inj h5.2.1 (h5.lt I).2.1 (IsSmall.lt (w := ⟨σ1, G⟩) i1 hT).2.1 (h5.2.2.1.symm.trans hT.2.2.1)
      obtain ⟨P, E, F, hin⟩ := C.pre.linked.inv.cls _ _ h5.1 h5.2.1
      have hvm := C.pre.linked.inv.clsVm _ _ h5.1 h5.2.1
      have hrange : inRange (slabAddr (ro.regionStart a cl) (ro.g.slabSize cl) i) (ro.g.slabSize cl) p := by
        rw [h5.2.2.1]
        have h15 := slot_in_slab h5.2.1 (h5.lt I).2.1
        unfold slotAddr slotPointer inRange
        omega
      have hno : (w.G.loc a cl i).isRw ≠ true := fun hl => by
        have := hvm.rw i p hl h8 hrange
        rw [C.pre.σ] at this
        exact ha this
      rcases hcase with h | h | h
      · rw [hin.lists.ph] at h
        rw [(hin.lists.pm i).mp (List.mem_of_head? h)] at hno
        exact absurd rfl hno
      · rw [hin.lists.eh] at h
        rw [(hin.lists.em i).mp (List.mem_of_head? h)] at hno
        exact absurd rfl hno
      · rw [C.post.σ, kept.can]
        exact h
  rw [hcv] at h12
  show s'.σ.vm.mem _ = _
  rw [← C.post.σ, show p + u + j = p + ro.g.slotSize cl - 8 + j by omega, h12]
  unfold byteOf canaryValue
  rw [hm]
  simp only [Bool.false_and, Bool.false_eq_true, if_false]
  exact mask_byte v j1 j8

end

/-- A small block becomes a large block: with the random number 5 there are six guard pages on each side. -/
example : ∃ h s s', Reach (exCfg false false) (exRo false false) (fun t => t % 4) false anyClient h s ∧ (∀ _ : Nat, Env false { exAt exMapAt with guard := 5 }) ∧
    (Call.realloc exA 200000).Ok ∧ (live h exA).isSome = true ∧
    s.call (exRo false false) (fun t => t % 4) 0 (.realloc exA 200000) (fun _ => { exAt exMapAt with guard := 5 }) = .ok (s', .ptr (exMapAt + 6 * 4096)) ∧
    (exRo false false).slabEnd ≤ exMapAt + 6 * 4096 ∧ Usable (exRo false false) s'.σ (exMapAt + 6 * 4096) 229376 := by
  obtain ⟨h, s, h1, h2⟩ := ex_any (stats := false) (sealed := false) (calm := false) [.call 0 (.malloc 100) 0]
    (fun h s => (live h exA).isSome && match s.call (exRo false false) (fun t => t % 4) 0 (.realloc exA 200000) (fun _ => { exAt exMapAt with guard := 5 }) with
        | .ok (s1, .ptr p) => decide (p = exMapAt + 6 * 4096) && decide (usableB (exRo false false) s1.σ (exMapAt + 6 * 4096) = some 229376)
        | _ => false) (by decide +kernel)
  rw [Bool.and_eq_true] at h2
  obtain ⟨h0, h2⟩ := h2
  split at h2 <;> try cases h2
  rename_i s1 p1 e1
  simp only [Bool.and_eq_true, decide_eq_true_eq] at h2
  obtain ⟨rfl, h2⟩ := h2
  exact ⟨h, s, s1, h1, fun _ => exAt_env _ exMapAt, ⟨by decide, by decide⟩, h0, e1, by decide, usableB_usable h2⟩

/-- A small block moves to the first slab of another class. -/
example : ∃ h s s1 p, Reach (exCfg false false) (exRo false false) (fun t => t % 4) false anyClient h s ∧ (exCfg false false).slabCanary = true ∧ (exCfg false false).mte = false ∧
    (∀ _ : Nat, Env false { exAt 0 with canary := 0x1122334455667788#64 }) ∧ (Call.realloc exA 200).Ok ∧ (live h exA).isSome = true ∧ p ≠ exA ∧
    s.call (exRo false false) (fun t => t % 4) 0 (.realloc exA 200) (fun _ => { exAt 0 with canary := 0x1122334455667788#64 }) = .ok (s1, .ptr p) ∧
    (exRo false false).slabStart ≤ p ∧ p < (exRo false false).slabEnd ∧ ¬ s.access p ∧ Usable (exRo false false) s1.σ p 216 := by
  obtain ⟨h, s, h1, h2⟩ := ex_any (stats := false) (sealed := false) (calm := false) [.call 0 (.malloc 100) 0]
    (fun h s => (live h exA).isSome &&
      match s.call (exRo false false) (fun t => t % 4) 0 (.realloc exA 200) (fun _ => { exAt 0 with canary := 0x1122334455667788#64 }) with
        | .ok (s1, .ptr p) => decide (p ≠ exA) && decide ((exRo false false).slabStart ≤ p) && decide (p < (exRo false false).slabEnd) &&
            decide (s.σ.vm.prot (p / PAGE) = .none) && decide (usableB (exRo false false) s1.σ p = some 216)
        | _ => false) (by decide +kernel)
  rw [Bool.and_eq_true] at h2
  obtain ⟨h0, h3⟩ := h2
  split at h3 <;> try cases h3
  rename_i s2 p2 e2
  simp only [Bool.and_eq_true, decide_eq_true_eq] at h3
  obtain ⟨⟨⟨⟨g1, g2⟩, g3⟩, g4⟩, g5⟩ := h3
  refine ⟨h, s, s2, p2, h1, rfl, rfl, fun _ => exAt_env _ 0, ⟨by decide, by decide⟩, h0, g1, e2, g2, g3, fun hn => ?_, usableB_usable g5⟩
  rw [Sys.access, g4] at hn
  cases hn

end HM
