import Verif.SpecMem
/-
The allocation functions of the API (h_malloc.c:1374-1376, 1401-1503, 1649-1671).
-/
namespace HM

variable {ro : Ro} {m : Mode} {t : Nat} {F : Bad → Choice → World → Prop}

/-- A write after free may be reported. -/
def FDirty (ro : Ro) (F : Bad → Choice → World → Prop) : Prop := ∀ ch w, Dirty ro w → F (.fatal "detected write after free") ch w

theorem Idle.pre {A : Nat → Prop} {fr : Nat → Nat → Nat} {pu : Nat × Nat} {w0 w w' : World} (hi : GInv ro w0) (r : Rely m ro t w0 w)
    (a : At m ro t A fr pu w w') : At m ro t A fr pu w0 w' :=
  ((Idle.ofRely hi r).trans a).mono (fun _ h => h.resolve_left id) (fun _ _ => by simp) (by simp)

theorem Tagged.env {w w' : World} (h : Tagged ro w) (e : w'.G.env = w.G.env) : Tagged ro w' := ⟨h.1, by rw [Gh.tags, e]; exact h.2⟩

theorem Untagged.env {w w' : World} (h : Untagged ro w) (e : w'.G.env = w.G.env) : Untagged ro w' := h.imp id fun h => by rw [Gh.tags, e]; exact h

theorem NewSmall.pre {a c p : Nat} {w0 w w' : World} (hi : GInv ro w0) (r : Rely m ro t w0 w) (n : NewSmall m ro t a c w p w') :
    NewSmall m ro t a c w0 p w' :=
  ⟨Idle.pre hi r n.at_, fun h => n.old ((r.blk hi p).mpr h), n.blk, n.small,
   fun hz hor => n.zero hz (hor.imp id (Or.imp (fun h => h.env (r.env hi)) fun ⟨h1, h2⟩ => ⟨h1, r.content hi h2⟩)), fun hm => by rw [← r.seq hm]; exact n.same hm, fun hm => by rw [← r.seq hm]; exact n.cleared hm⟩

/-- The block `p` got by asking for `s` bytes (canary included). -/
def Got (m : Mode) (ro : Ro) (t a s : Nat) (w0 : World) (p : Nat) (w : World) : Prop :=
  (s ≤ ro.g.maxSlab ∧ NewSmall m ro t a (ro.g.clsOf s) w0 p w) ∨
  (ro.g.maxSlab < s ∧ NewLarge m ro t (getLargeSizeClass ro.g s) (fun _ => True) 0 w0 p w)

theorem Got.pre {a s p : Nat} {w0 w w' : World} (hi : GInv ro w0) (r : Rely m ro t w0 w) (g : Got m ro t a s w p w') : Got m ro t a s w0 p w' :=
  g.imp (fun ⟨h, n⟩ => ⟨h, n.pre hi r⟩) (fun ⟨h, n⟩ => ⟨h, n.pre (Idle.ofRely hi r)⟩)

theorem Got.rely {a s p : Nat} {w0 w w' : World} (g : Got m ro t a s w0 p w) (r : Rely m ro t w w') : Got m ro t a s w0 p w' :=
  g.imp (fun ⟨h, n⟩ => ⟨h, n.rely r⟩) (fun ⟨h, n⟩ => ⟨h, n.rely r⟩)

/-- Why an allocation of `s` bytes (canary included) fails. -/
def Denied (m : Mode) (ro : Ro) (t a s : Nat) (w0 : World) (e : Errno) (w : World) : Prop :=
  Idle m ro t w0 w ∧ (e = ENOMEM ∨ (ro.g.maxSlab < s ∧ (m = .seq → TableFull ro w))) ∧
  (m = .seq → w0.G.calm = true → s ≤ ro.g.maxSlab → ClassFull ro w0 a (ro.g.clsOf s))

theorem Denied.pre {a s : Nat} {e : Errno} {w0 w w' : World} (hi : GInv ro w0) (r : Rely m ro t w0 w) (d : Denied m ro t a s w e w') :
    Denied m ro t a s w0 e w' :=
  ⟨Idle.pre hi r d.1, d.2.1, fun hm => by rw [← r.seq hm]; exact d.2.2 hm⟩

theorem Denied.rely {a s : Nat} {e : Errno} {w0 w w' : World} (d : Denied m ro t a s w0 e w) (r : Rely m ro t w w') :
    Denied m ro t a s w0 e w' :=
  ⟨d.1.rely r, d.2.1.imp id fun ⟨h1, h2⟩ => ⟨h1, fun hm => by rw [r.seq hm]; exact h2 hm⟩, d.2.2⟩

/-- h_malloc.c:1374-1376. -/
theorem allocate_wp {a s : Nat} {tl : Tl} {w : World} (hro : RoOk ro) (hF : FSys F) (hD : FDirty ro F) (hi : GInv ro w) (hu : Unsealed ro tl)
    (ha : a < ro.g.nArena) (hs : s < W64) :
    WP m ro t F (allocate ro a s) (fun r tl' w' => tl'.unsealed = tl.unsealed ∧
      match r with
      | none => Denied m ro t a s w tl'.errno w'
      | some p => Got m ro t a s w p w') tl w := by
  unfold allocate
  by_cases h : s ≤ ro.g.maxSlab
  · rw [if_pos h]
    refine (smallAlloc_wp hro hF hi hu ha h (fun ch => hD ch w)).mono fun r tl' w' => ?_
    rintro ⟨h1, h2⟩
    refine ⟨h1, ?_⟩
    cases r with
    | none => exact ⟨h2.1, Or.inl h2.2.1, fun _ hc _ => h2.2.2 hc⟩
    | some p => exact Or.inl ⟨h, h2.2⟩
  · rw [if_neg h]
    refine (allocateLarge_wp hro hF hi hu hs).mono fun r tl' w' => ?_
    rintro ⟨h1, h2⟩
    refine ⟨h1, ?_⟩
    cases r with
    | none => exact ⟨h2.1, h2.2.imp id fun h3 => ⟨by omega, h3⟩, fun _ _ h' => absurd h' h⟩
    | some p => exact Or.inr ⟨by omega, h2⟩

/-- h_malloc.c:1473-1479. -/
theorem alloc_wp {a s : Nat} {tl : Tl} {w : World} (hro : RoOk ro) (hF : FSys F) (hD : FDirty ro F) (hi : GInv ro w)
    (ha : a < ro.g.nArena) (hs : s < W64) :
    WP m ro t F (alloc ro a s) (fun r tl' w' => tl'.unsealed = false ∧
      match r with
      | none => Denied m ro t a s w tl'.errno w'
      | some p => Got m ro t a s w p w') tl w := by
  unfold alloc
  refine WP.andThen (WP.unseal hi fun w1 r1 => ?_)
  refine WP.andThen ((allocate_wp hro hF hD (r1.inv hi) (fun _ => rfl) ha hs).mono fun r tl2 w2 => ?_)
  rintro ⟨_, h2⟩
  cases r with
  | none => exact WP.andThen (WP.sealM h2.1.inv fun w3 r3 => WP.pure ⟨rfl, (h2.pre hi r1).rely r3⟩)
  | some p =>
    have hi2 : GInv ro w2 := by rcases h2 with ⟨_, n⟩ | ⟨_, n⟩ <;> exact n.at_.inv
    exact WP.andThen (WP.sealM hi2 fun w3 r3 => WP.pure ⟨rfl, (Got.pre hi r1 h2).rely r3⟩)

/-- The number of bytes the user gets, at least, when `s` bytes (canary included) are asked for. -/
def Cfg.payload (g : Cfg) (s : Nat) : Nat := if 0 < s ∧ s ≤ g.maxSlab then s - g.canarySize else s

theorem canarySize_le (g : Cfg) : g.canarySize ≤ 8 := by
  rcases canarySize_cases g with ⟨_, e⟩ | ⟨_, e⟩ <;> omega

theorem adjust_lt {g : Cfg} {n : Nat} (h : n < W64) : adjustSizeForCanary g n < W64 := by
  have := canarySize_le g
  unfold adjustSizeForCanary
  rcases maxSlab_cases g with ⟨_, e⟩ | ⟨_, e⟩ <;> rw [e] <;> split <;> omega

theorem le_payload (g : Cfg) (n : Nat) : n ≤ g.payload (adjustSizeForCanary g n) := by
  unfold Cfg.payload adjustSizeForCanary
  by_cases h : 0 < n ∧ n ≤ g.maxSlab
  · rw [if_pos h]; split <;> omega
  · rw [if_neg h, if_neg h]

/-- The slot `p` was zero when it was chosen. -/
def SlotClean (m : Mode) (ro : Ro) (p : Nat) (w0 : World) : Prop :=
  m = .seq → Untagged ro w0 → ro.g.writeAfterFreeCheck = true → ro.inSlab p = true → ∀ x, inRange p (ro.slabUsableSize p - ro.g.canarySize) x → w0.σ.vm.mem x = 0#8

/-- `p` is a new block of `t` of at least `n` bytes. -/
structure NewBlk (m : Mode) (ro : Ro) (t n un : Nat) (w0 : World) (p : Nat) (w : World) : Prop where
  at_ : At m ro t (· = p) noFree (0, un) w0 w
  old : w0.G.blk p ≠ .thr t
  mine : Mine t p w
  bytes : ∀ x, inRange p n x → UserByte ro w p x
  clean : SlotClean m ro p w0

theorem NewSmall.newBlk {a s p : Nat} {w0 w : World} (hro : RoOk ro) (hs : s ≤ ro.g.maxSlab)
    (n : NewSmall m ro t a (ro.g.clsOf s) w0 p w) : NewBlk m ro t (ro.g.payload s) 0 w0 p w := by
  obtain ⟨i, k, h1, _⟩ := n.small
  refine ⟨n.at_, n.old, ⟨n.blk, ?_⟩, fun x hx => ?_, fun hm hg hw _ x hx => ?_⟩
  rotate_right
  · have e := h1.cls hro n.at_.inv
    unfold Ro.slabUsableSize at hx
    rw [e] at hx
    simp only at hx
    have hz : ro.g.classSize (ro.g.clsOf s) ≠ 0 := by unfold inRange at hx; omega
    have hx : inRange p (ro.g.usable (ro.g.clsOf s)) x := by unfold Cfg.usable Cfg.slotSize; rw [if_neg hz]; exact hx
    rw [← n.same hm hg x hx]; exact n.zero hz (Or.inl hw) x hx
  · cases e : w.G.eff p with
    | none => rfl
    | some v =>
      obtain ⟨_, z, g, h2, _⟩ := n.at_.inv.eff p v e
      exact (not_small_has hro n.at_.inv h1 h2).elim
  · have h2 := le_classSize hs
    have hz : ro.g.classSize (ro.g.clsOf s) ≠ 0 := by
      unfold Cfg.payload at hx
      unfold inRange at hx
      split at hx <;> omega
    refine Or.inl ⟨a, _, i, k, h1, hz, ?_⟩
    have : ro.g.slotSize (ro.g.clsOf s) = ro.g.classSize (ro.g.clsOf s) := by unfold Cfg.slotSize; rw [if_neg hz]
    rw [this]
    unfold Cfg.payload at hx
    unfold inRange at *
    split at hx <;> omega

theorem NewLarge.newBlk {s n p un : Nat} {ok : Nat → Prop} {w0 w : World} (hro : RoOk ro) (hn : n ≤ s) (N : NewLarge m ro t s ok un w0 p w) :
    NewBlk m ro t n un w0 p w := by
  obtain ⟨g, h⟩ := N.has
  refine ⟨N.at_, N.old, ⟨N.blk, N.eff⟩, fun x hx => Or.inr ⟨s, g, h, ?_⟩, fun _ _ _ hin => by rw [has_not_inSlab hro N.at_.inv h] at hin; cases hin⟩
  have : w.G.effSize ⟨p, s, g⟩ = s := by unfold Gh.effSize; rw [show w.G.eff p = none from N.eff]; rfl
  rw [this]
  have := pageUp_le_iff (n := s)
  unfold inRange at *; omega

theorem NewLarge.pos {s p un : Nat} {ok : Nat → Prop} {w0 w : World} (N : NewLarge m ro t s ok un w0 p w) : s ≠ 0 := by
  obtain ⟨g, h⟩ := N.has
  have := (N.at_.inv.reg _ h).size
  simp only at this; omega

theorem Got.newBlk {a s p : Nat} {w0 w : World} (hro : RoOk ro) (hs : s < W64) (g : Got m ro t a s w0 p w) :
    NewBlk m ro t (ro.g.payload s) 0 w0 p w := by
  rcases g with ⟨h, n⟩ | ⟨h, n⟩
  · exact n.newBlk hro h
  · refine n.newBlk hro ?_
    have := (getLargeSizeClass_ok ro.g hs n.pos).1
    unfold Cfg.payload
    split <;> omega

/-- h_malloc.c:1481-1484. -/
theorem hMalloc_wp {a n : Nat} {tl : Tl} {w : World} (hro : RoOk ro) (hF : FSys F) (hD : FDirty ro F) (hi : GInv ro w)
    (ha : a < ro.g.nArena) (hn : n < W64) :
    WP m ro t F (hMalloc ro a n) (fun r tl' w' => tl'.unsealed = false ∧
      match r with
      | none => Denied m ro t a (adjustSizeForCanary ro.g n) w tl'.errno w'
      | some p => Got m ro t a (adjustSizeForCanary ro.g n) w p w') tl w :=
  alloc_wp hro hF hD hi ha (adjust_lt hn)

/-! ### calloc -/

/-- The block `p` got from `calloc`: as for malloc, and zero. -/
structure GotZero (m : Mode) (ro : Ro) (t a n : Nat) (w0 : World) (p : Nat) (w : World) : Prop where
  got : NewBlk m ro t (ro.g.payload (adjustSizeForCanary ro.g n)) 0 w0 p w
  kind : (adjustSizeForCanary ro.g n ≤ ro.g.maxSlab ∧ ∃ i k, IsSmall ro w.σ p a (ro.g.clsOf (adjustSizeForCanary ro.g n)) i k ∧
      CanaryOk ro w p a (ro.g.clsOf (adjustSizeForCanary ro.g n)) i) ∨
    (ro.g.maxSlab < adjustSizeForCanary ro.g n ∧ ∃ g, w.σ.rt.Has ⟨p, getLargeSizeClass ro.g (adjustSizeForCanary ro.g n), g⟩)
  zero : (ro.g.zeroOnFree = true → ro.g.writeAfterFreeCheck = true ∨ Tagged ro w0 ∨ Content ro w0) → ∀ x, inRange p n x → w.σ.vm.mem x = 0#8

theorem GotZero.rely {a n p : Nat} {w0 w w' : World} (hro : RoOk ro) (g : GotZero m ro t a n w0 p w) (r : Rely m ro t w w') :
    GotZero m ro t a n w0 p w' := by
  have hi := g.got.at_.inv
  have k := r.keep hi g.got.mine.blk
  have hb : ∀ x, inRange p (ro.g.payload (adjustSizeForCanary ro.g n)) x → UserByte ro w' p x ∧ w'.σ.vm.mem x = w.σ.vm.mem x := by
    intro x hx
    rcases g.got.bytes x hx with ⟨a', c, i, j, h1, h2, h3⟩ | ⟨s, g, h1, h3⟩
    · obtain ⟨k1, _, k3⟩ := k.small a' c i j h1
      exact ⟨Or.inl ⟨a', c, i, j, k1, h2, h3⟩, k3 x (by unfold inRange at *; omega)⟩
    · obtain ⟨k1, k2, k3⟩ := k.large s g h1
      refine ⟨Or.inr ⟨s, g, k1, ?_⟩, k3 x h3⟩
      have : w'.G.effSize ⟨p, s, g⟩ = w.G.effSize ⟨p, s, g⟩ := by unfold Gh.effSize; simp only; rw [k2]
      rw [this]; exact h3
  refine ⟨⟨g.got.at_.rely r, g.got.old, g.got.mine.keep hro hi (r.inv hi) k, fun x hx => (hb x hx).1, g.got.clean⟩, ?_, fun h x hx => ?_⟩
  · rcases g.kind with ⟨h1, i, j, h2, h3⟩ | ⟨h1, z, h2⟩
    · obtain ⟨k1, k2, k3⟩ := k.small _ _ i j h2
      have := (classGeo ro.g h2.2.1).size_ge
      exact Or.inl ⟨h1, i, j, k1, fun a b => by rw [k2]; exact (h3 a b).congr fun j hj => k3 _ (by unfold inRange; omega)⟩
    · exact Or.inr ⟨h1, z, (k.large _ z h2).1⟩
  · have := le_payload ro.g n
    rw [(hb x (by unfold inRange at *; omega)).2]; exact g.zero h x hx

theorem payload_small {g : Cfg} {n : Nat} (h0 : adjustSizeForCanary g n ≠ 0) (h : adjustSizeForCanary g n ≤ g.maxSlab) :
    g.payload (adjustSizeForCanary g n) = n ∧ adjustSizeForCanary g n = n + g.canarySize := by
  unfold Cfg.payload adjustSizeForCanary at *
  by_cases k : 0 < n ∧ n ≤ g.maxSlab
  · rw [if_pos k] at *; rw [if_pos ⟨by omega, h⟩]; omega
  · rw [if_neg k] at *; omega

/-- h_malloc.c:1486-1503. -/
theorem hCalloc_wp {a n k : Nat} {tl : Tl} {w : World} (hro : RoOk ro) (hF : FSys F) (hD : FDirty ro F) (hi : GInv ro w)
    (ha : a < ro.g.nArena) :
    WP m ro t F (hCalloc ro a n k) (fun r tl' w' => ((W64 ≤ n * k ∧ tl'.unsealed = tl.unsealed) ∨ tl'.unsealed = false) ∧
      match r with
      | none => (W64 ≤ n * k ∧ tl'.errno = ENOMEM ∧ Idle m ro t w w') ∨ (n * k < W64 ∧ Denied m ro t a (adjustSizeForCanary ro.g (n * k)) w tl'.errno w')
      | some p => n * k < W64 ∧ GotZero m ro t a (n * k) w p w') tl w := by
  unfold hCalloc
  by_cases hov : W64 ≤ n * k
  · rw [if_pos hov]
    exact WP.andThen (WP.setErrno hi fun w1 r1 => WP.pure ⟨Or.inl ⟨hov, rfl⟩, Or.inl ⟨hov, rfl, Idle.ofRely hi r1⟩⟩)
  · rw [if_neg hov]
    have hlt : n * k < W64 := by omega
    generalize n * k = N at *
    refine WP.andThen ((alloc_wp hro hF hD hi ha (adjust_lt hlt)).mono fun r tl1 w1 => ?_)
    rintro ⟨h1, h2⟩
    cases r with
    | none => exact WP.pure ⟨Or.inr h1, Or.inr ⟨hlt, h2⟩⟩
    | some p =>
      have nb := Got.newBlk hro (adjust_lt hlt) h2
      have hi1 := nb.at_.inv
      have hkind : (adjustSizeForCanary ro.g N ≤ ro.g.maxSlab ∧ ∃ i k, IsSmall ro w1.σ p a (ro.g.clsOf (adjustSizeForCanary ro.g N)) i k ∧
          CanaryOk ro w1 p a (ro.g.clsOf (adjustSizeForCanary ro.g N)) i) ∨
          (ro.g.maxSlab < adjustSizeForCanary ro.g N ∧ ∃ g, w1.σ.rt.Has ⟨p, getLargeSizeClass ro.g (adjustSizeForCanary ro.g N), g⟩) := by
        rcases h2 with ⟨h3, n⟩ | ⟨h3, n⟩
        · exact Or.inl ⟨h3, n.small⟩
        · exact Or.inr ⟨h3, n.has⟩
      simp only
      by_cases hc : (!ro.g.zeroOnFree && decide (adjustSizeForCanary ro.g N ≠ 0) && decide (adjustSizeForCanary ro.g N ≤ ro.g.maxSlab)) = true
      · rw [if_pos hc]
        simp only [Bool.and_eq_true, decide_eq_true_eq] at hc
        obtain ⟨⟨hc1, hc2⟩, hc3⟩ := hc
        obtain ⟨p1, p2⟩ := payload_small hc2 hc3
        have hb : ∀ x, inRange p (adjustSizeForCanary ro.g N - ro.g.canarySize) x → UserByte ro w1 p x := by
          intro x hx; refine nb.bytes x ?_; rw [p1]; rw [p2] at hx; simpa using hx
        refine WP.andThen (WP.memZero hro hi1 nb.mine.blk hb fun w2 r2 => WP.pure ⟨Or.inr h1, hlt, ?_⟩)
        have st := fill_step (v := 0#8) hb
        refine GotZero.rely hro (w := w1.setMem (w1.σ.vm.fill p (adjustSizeForCanary ro.g N - ro.g.canarySize) 0#8)) ⟨⟨?_, nb.old, ⟨nb.mine.blk, nb.mine.eff⟩, nb.bytes, nb.clean⟩, ?_, ?_⟩ r2
        · exact (nb.at_.trans (st.at hro hi1 nb.mine.blk)).mono (fun _ h => h.elim id id) (fun _ _ => Nat.le_refl _) (by simp)
        · rcases hkind with ⟨h3, i, k, h4, h5⟩ | h3
          · refine Or.inl ⟨h3, i, k, h4, fun z1 z2 => ?_⟩
            refine (h5 z1 z2).congr fun j hj => ?_
            show (if inRange _ _ _ then _ else _) = _
            have h6 := le_classSize hc3
            have : ro.g.slotSize (ro.g.clsOf (adjustSizeForCanary ro.g N)) = ro.g.classSize (ro.g.clsOf (adjustSizeForCanary ro.g N)) := by
              unfold Cfg.slotSize; rw [if_neg z1]
            rw [if_neg]
            rcases canarySize_cases ro.g with ⟨_, e⟩ | ⟨e, _⟩
            · rw [this]; unfold inRange; omega
            · rw [z2] at e; exact absurd e (by simp)
          · exact Or.inr h3
        · intro _ x hx
          show (if inRange _ _ _ then _ else _) = _
          rw [if_pos (by rw [p2]; simpa using hx)]
      · rw [if_neg hc]
        refine WP.pure ⟨Or.inr h1, hlt, nb, hkind, fun hz x hx => ?_⟩
        simp only [Bool.and_eq_true, decide_eq_true_eq, Bool.not_eq_true', not_and_or] at hc
        have hbx := nb.bytes x (by have := le_payload ro.g N; unfold inRange at *; omega)
        rcases h2 with ⟨h3, n⟩ | ⟨h3, n⟩
        · have h0 : adjustSizeForCanary ro.g N ≠ 0 := by
            intro e
            have := le_payload ro.g N
            rw [e] at this
            unfold Cfg.payload at this
            unfold inRange at hx
            simp at this; omega
          have hzf : ro.g.zeroOnFree = true := by
            rcases hc with (hc | hc) | hc
            · simpa using hc
            · exact absurd h0 hc
            · exact absurd h3 hc
          obtain ⟨p1, p2⟩ := payload_small h0 h3
          have h6 := le_classSize h3
          have z1 : ro.g.classSize (ro.g.clsOf (adjustSizeForCanary ro.g N)) ≠ 0 := by omega
          have : ro.g.slotSize (ro.g.clsOf (adjustSizeForCanary ro.g N)) = ro.g.classSize (ro.g.clsOf (adjustSizeForCanary ro.g N)) := by
            unfold Cfg.slotSize; rw [if_neg z1]
          refine n.zero z1 ((hz hzf).imp id (Or.imp id fun h => ⟨hzf, h⟩)) x ?_
          unfold Cfg.usable; rw [this]; unfold inRange at *; omega
        · refine n.zero x ?_
          have h5 := (getLargeSizeClass_ok ro.g (adjust_lt hlt) n.pos).1
          have h6 := pageUp_le_iff (n := getLargeSizeClass ro.g (adjustSizeForCanary ro.g N))
          have h7 : N ≤ adjustSizeForCanary ro.g N := by unfold adjustSizeForCanary; split <;> omega
          unfold inRange at *; omega

end HM
