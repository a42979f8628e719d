import Verif.SpecSmall
/-
Writes by the allocator into blocks of the caller: `memset` and `memcpy` in `h_calloc` and `h_realloc`, and `mremap`.
-/
namespace HM

variable {ro : Ro} {m : Mode} {t : Nat} {F : Bad → Choice → World → Prop}

theorem MemStep.at {p : Nat} {w : World} {vm' : Vm} (hro : RoOk ro) (hi : GInv ro w) (hb : w.G.blk p = .thr t) (s : MemStep ro p w vm') :
    At m ro t (· = p) noFree 0 w (w.setMem vm') :=
  At.ofGuar (s.guar hro hi hb) (fun _ hq => s.keep hro hi hq) (fun _ _ => Nat.le_refl _) (Nat.le_refl _) (Nat.le_refl _)

theorem fill_step {p a n : Nat} {v : BitVec 8} {w : World} (hu : ∀ x, inRange a n x → UserByte ro w p x) : MemStep ro p w (w.σ.vm.fill a n v) where
  prot := rfl
  mem := fun x hx => by
    refine hu x ?_
    by_contra hn
    refine hx ?_
    show (if inRange a n x then _ else _) = _
    rw [if_neg hn]

theorem copy_step {p a b n : Nat} {w : World} (hu : ∀ x, inRange a n x → UserByte ro w p x) : MemStep ro p w (w.σ.vm.copy a b n) where
  prot := rfl
  mem := fun x hx => by
    refine hu x ?_
    by_contra hn
    refine hx ?_
    show (if inRange a n x then _ else _) = _
    rw [if_neg hn]

/-- Whether bytes that noise does not reach are accessible. -/
theorem accessible_noise {a n : Nat} {w : World} {N : Cell → Prop} {ν : St} (hro : RoOk ro) (hi : GInv ro w) (hN : Noise ro t none w N ν)
    (h : ∀ x, inRange a n x → (∃ p, w.G.blk p = .thr t ∧ UserByte ro w p x) ∨ w.G.own (x / PAGE) ≠ .slab) :
    (w.σ.patch N ν).vm.accessible a n = w.σ.vm.accessible a n := by
  have key : ∀ x, inRange a n x → ((w.σ.patch N ν).vm.prot (x / PAGE) = .rw ↔ w.σ.vm.prot (x / PAGE) = .rw) := by
    intro x hx
    by_cases hn : N (.prot (x / PAGE))
    · rw [show (w.σ.patch N ν).vm.prot (x / PAGE) = ν.vm.prot (x / PAGE) from if_pos hn]
      obtain ⟨h1, _, h3⟩ := hN.1 _ hn
      rcases h x hx with ⟨p, h4, h5⟩ | h4
      · exact ⟨fun _ => h5.rw hro hi, fun _ => h3 p x h4 h5 rfl⟩
      · exact absurd h1 h4
    · rw [show (w.σ.patch N ν).vm.prot (x / PAGE) = w.σ.vm.prot (x / PAGE) from if_neg hn]
  rcases Nat.eq_zero_or_pos n with rfl | hn
  · simp [Vm.accessible]
  · rw [Bool.eq_iff_iff, Vm.accessible_iff hn, Vm.accessible_iff hn]
    exact forall_congr' fun x => ⟨fun f hx => (key x hx).mp (f hx), fun f hx => (key x hx).mpr (f hx)⟩

/-- Bytes that noise does not reach. -/
theorem mem_noise {w : World} {N : Cell → Prop} {ν : St} (hN : Noise ro t none w N ν) {x : Nat}
    (h : (∃ p, w.G.blk p = .thr t ∧ UserByte ro w p x) ∨ w.G.own (x / PAGE) ≠ .slab) : ¬ N (.mem x) := fun hn => by
  obtain ⟨h1, h2⟩ := hN.2 x hn
  rcases h with ⟨p, h3, h4⟩ | h3
  · exact h2 p h3 h4
  · exact h3 h1

theorem copy_patch {vm ν : Vm} {P B : Nat → Prop} {d s n : Nat} (hd : ∀ x, inRange d n x → ¬ B x) (hs : ∀ x, inRange s n x → ¬ B x) :
    (vm.patch P B ν).copy d s n = (vm.copy d s n).patch P B ν := by
  unfold Vm.copy Vm.patch
  congr 1
  funext x
  by_cases hx : inRange d n x
  · simp only [if_pos hx, if_neg (hd x hx)]
    rw [if_neg (hs _ (by unfold inRange at *; omega))]
  · simp only [if_neg hx]

/-- `memset` on a block of `t`. -/
theorem WP.memZero {p n : Nat} {Q : Unit → Tl → World → Prop} {tl : Tl} {w : World} (hro : RoOk ro) (hi : GInv ro w)
    (hb : w.G.blk p = .thr t) (hu : ∀ x, inRange p n x → UserByte ro w p x)
    (h : ∀ w2, Rely m ro t (w.setMem (w.σ.vm.fill p n 0#8)) w2 → Q () tl w2) : WP m ro t F (HM.memZero p n) Q tl w := by
  refine WP.one (fun _ => Local.of fun ch _ N ν hN => ?_) fun _ _ => ?_
  · rw [accessible_noise hro hi hN fun x hx => Or.inl ⟨p, hb, hu x hx⟩]
    split
    · show (_, _, _) = (_, _, _)
      rw [show (w.σ.patch N ν).vm = w.σ.vm.patch (fun pg => N (.prot pg)) (fun x => N (.mem x)) ν.vm from rfl,
        fill_patch fun x hx => mem_noise hN (Or.inl ⟨p, hb, hu x hx⟩)]
      rfl
    · trivial
  rw [if_pos (Vm.accessible_of_pages fun x hx => (hu x hx).rw hro hi)]
  exact ⟨w.G, ((fill_step hu).guar hro hi hb).quiet, h⟩

/-- `memcpy` into a block of `t`; the source need not be accessible. -/
theorem WP.memCopy {p q n : Nat} {Q : Unit → Tl → World → Prop} {tl : Tl} {w : World} (hro : RoOk ro) (hi : GInv ro w)
    (hb : w.G.blk p = .thr t) (hu : ∀ x, inRange p n x → UserByte ro w p x)
    (hq : m = .conc → ∀ x, inRange q n x → (∃ p, w.G.blk p = .thr t ∧ UserByte ro w p x) ∨ w.G.own (x / PAGE) ≠ .slab)
    (hs : ∀ ch, w.σ.vm.accessible q n = false → F .segv ch w)
    (h : ∀ w2, Rely m ro t (w.setMem (w.σ.vm.copy p q n)) w2 → Q () tl w2) : WP m ro t F (HM.memCopy p q n) Q tl w := by
  refine WP.one (fun hm => Local.of fun ch _ N ν hN => ?_) fun ch _ => ?_
  · rw [accessible_noise hro hi hN fun x hx => Or.inl ⟨p, hb, hu x hx⟩, accessible_noise hro hi hN (hq hm)]
    split
    · show (_, _, _) = (_, _, _)
      rw [show (w.σ.patch N ν).vm = w.σ.vm.patch (fun pg => N (.prot pg)) (fun x => N (.mem x)) ν.vm from rfl,
        copy_patch (fun x hx => mem_noise hN (Or.inl ⟨p, hb, hu x hx⟩)) (fun x hx => mem_noise hN (hq hm x hx))]
      rfl
    · trivial
  rw [Vm.accessible_of_pages fun x hx => (hu x hx).rw hro hi, Bool.true_and]
  cases hq : w.σ.vm.accessible q n with
  | false => exact hs ch hq
  | true => exact ⟨w.G, ((copy_step hu).guar hro hi hb).quiet, h⟩

/-- The memory after moving pages. -/
def remapMem (vm : Vm) (old oldSize new newSize : Nat) : Vm :=
  { vm with mem := fun x => if inPages new newSize (x / PAGE) then
      (if inPages old oldSize ((old + (x - new)) / PAGE) then vm.mem (old + (x - new)) else 0#8) else vm.mem x }

/-- memory.c:96-103: moving pages held by `t` over a region of `t`. -/
theorem WP.sysRemap {old oldSize new newSize g : Nat} {Q : Bool → Tl → World → Prop} {tl : Tl} {w : World} (hro : RoOk ro) (hF : FSys F)
    (hi : GInv ro w) (hm : Mine t new w) (hr : w.σ.rt.Has ⟨new, newSize, g⟩) (ho : old % PAGE = 0) (hs : 0 < oldSize)
    (hh : Held t (inPages old oldSize) w)
    (h1 : ∀ w2, Rely m ro t w w2 → Q true { tl with errno := ENOMEM } w2)
    (h2 : MemStep ro new w (remapMem w.σ.vm old oldSize new newSize) → Held t (inPages old oldSize) (w.setMem (remapMem w.σ.vm old oldSize new newSize)) →
      ∀ w2, Rely m ro t ((w.setMem (remapMem w.σ.vm old oldSize new newSize)).unmap old oldSize) w2 → Q false tl w2) :
    WP m ro t F (HM.sysRemap old oldSize new newSize) Q tl w := by
  have R := hi.reg _ hr
  have r1 := R.pmod; have r2 := R.size
  simp only at r1 r2
  have hes : w.G.effSize ⟨new, newSize, g⟩ = newSize := by unfold Gh.effSize; rw [show w.G.eff new = none from hm.eff]; rfl
  have st : MemStep ro new w (remapMem w.σ.vm old oldSize new newSize) := by
    refine ⟨rfl, fun x hx => Or.inr ⟨newSize, g, hr, ?_⟩⟩
    rw [hes]
    have hp : inPages new newSize (x / PAGE) := by
      by_contra hn
      refine hx ?_
      show (if inPages new newSize (x / PAGE) then _ else _) = _
      rw [if_neg hn]
    unfold inPages at hp; unfold inRange pageUp; omega
  have hown : ∀ pg, inPages new newSize pg → w.G.own pg = .reg new := fun pg hp => hi.reg_body hr (by rw [hes]; exact hp)
  have hnew : ∀ pg, inPages new newSize pg → w.G.own pg ≠ .slab := fun pg hp e => by rw [hown pg hp] at e; cases e
  refine WP.sysCall (fun ch N ν hN => memoryRemapFixed_patch (hN.prot hnew) (hN.prot hh.heldN.off) (hN.mem hnew) (hN.mem hh.heldN.off)) fun ch _ => ?_
  unfold memoryRemapFixed
  rw [if_neg (by omega)]
  cases hsys : ch.sys 0 with
  | other => exact hF _ _ _ (Or.inl ⟨0, hsys⟩)
  | enomem =>
    refine ⟨w.G, (Trans.refl hi).quiet, fun w2 hr e he _ => ?_⟩
    rw [he rfl]; exact h1 w2 hr
  | ok =>
    have hi1 := st.ginv hro hi
    have hh1 : Held t (inPages old oldSize) (w.setMem (remapMem w.σ.vm old oldSize new newSize)) := hh
    have gu := (st.guar hro hi hm.blk).trans (unmap_guar hro hi1 hh1.heldN)
    have e : (⟨{ w.σ with vm := ⟨fun pg => if inPages new newSize pg then .rw else if inPages old oldSize pg then .unmapped else w.σ.vm.prot pg,
        fun x => if inPages new newSize (x / PAGE) then
          (if inPages old oldSize ((old + (x - new)) / PAGE) then w.σ.vm.mem (old + (x - new)) else 0#8) else w.σ.vm.mem x⟩ },
          ((w.setMem (remapMem w.σ.vm old oldSize new newSize)).unmap old oldSize).G⟩ : World) =
        (w.setMem (remapMem w.σ.vm old oldSize new newSize)).unmap old oldSize := by
      have : (fun pg => if inPages new newSize pg then Prot.rw else if inPages old oldSize pg then .unmapped else w.σ.vm.prot pg) =
          fun pg => if inPages old oldSize pg then Prot.unmapped else w.σ.vm.prot pg := by
        funext pg
        by_cases k : inPages new newSize pg
        · rw [if_pos k, if_neg (fun k' => by have := hh pg k'; rw [hown pg k] at this; exact absurd this (by simp))]
          exact (hi.regRw _ _ hr (by rw [hes]; exact k)).symm
        · rw [if_neg k]
      unfold World.setMem World.unmap World.setVm Vm.setProt remapMem
      rw [this]
    refine ⟨((w.setMem (remapMem w.σ.vm old oldSize new newSize)).unmap old oldSize).G, ?_, fun w2 hr e' _ he => ?_⟩
    · rw [e]; exact gu.quiet
    · rw [e] at hr
      rw [he rfl rfl]; exact h2 st hh1 w2 hr

end HM
