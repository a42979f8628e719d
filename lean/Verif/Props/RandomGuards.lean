import Verif.Props.RandomLayout
import Verif.Props.Blocks

/-! Random guards (C70): the guards of large blocks from any of the functions that allocate. -/

namespace HM

/-- What a call that allocates `p` leaves behind: no change to the records of large blocks, or a record of `p` with guards given by `v`, and no other new mapping. -/
def GuardLeft (ro : Ro) (v : Nat) (σ σ' : St) (p : Nat) : Prop := σ'.rt = σ.rt ∨
  ∃ n, LargeLeft σ (getLargeSizeClass ro.g n) ((v % max 1 (getLargeSizeClass ro.g n / 4096 / ro.g.guardSizeDivisor) + 1) * 4096) σ' (some p)

theorem allocate_left {ro : Ro} {a n v : Nat} {σ : St} {tl : Tl} :
    (allocate ro a n).Ends v σ tl fun σ' _ o => ∀ p, o = some p → GuardLeft ro v σ σ' p := by
  unfold allocate
  split
  · refine critical_ends fun ch σ1 e1 o _ hf tl1 p _ => Or.inl ?_
    simp only at hf
    split at hf
    · cases hf
    · split at hf <;> cases hf
      rfl
  · exact allocateLarge_left.weaken fun σ1 tl1 o h p e => Or.inr ⟨n, by rw [← e]; exact h⟩

theorem sysMap_at {n : Nat} {v : Nat} {σ : St} {tl : Tl} : (sysMap n).Ends v σ tl fun σ' _ o =>
    ∀ x, o = some x → x % PAGE = 0 ∧ x + n ≤ ADDR_END ∧ ∀ pg, σ'.vm.prot pg ≠ .unmapped → σ.vm.prot pg ≠ .unmapped ∨ inPages x n pg := by
  refine Prog.Ends.act fun ch σ' tl' b _ hf => Prog.Ends.ret ?_
  split at hf <;> cases hf
  · rename_i h1
    intro x hx
    cases hx
    unfold memoryMap at h1
    (repeat' split at h1) <;> cases h1
    rename_i h3
    refine ⟨h3.1, h3.2.2.1, fun pg hp => ?_⟩
    by_cases h2 : inPages ch.addr n pg
    · exact Or.inr h2
    · left
      simpa [Vm.zeroPages, Vm.setProt, h2] using hp
  · exact fun x hx => by cases hx

theorem unmap_prot {vm vm' : Vm} {r : SysRes} {p n : Nat} (h : memoryUnmap vm r p n = .ok (vm', false)) {pg : Nat} (hp : vm'.prot pg ≠ .unmapped) :
    vm.prot pg ≠ .unmapped ∧ ¬ inPages p n pg := by
  unfold memoryUnmap at h
  (repeat' split at h) <;> cases h
  by_cases h2 : inPages p n pg
  · exact absurd (by simp [Vm.setProt, h2]) hp
  · exact ⟨by simpa [Vm.setProt, h2] using hp, h2⟩

theorem sysUnmap_gone {p n : Nat} {v : Nat} {σ : St} {tl : Tl} : (sysUnmap p n).Ends v σ tl fun σ' _ b =>
    b = false → ∀ pg, σ'.vm.prot pg ≠ .unmapped → σ.vm.prot pg ≠ .unmapped ∧ ¬ inPages p n pg := by
  refine Prog.Ends.act fun ch σ' tl' b _ hf => Prog.Ends.ret ?_
  split at hf <;> cases hf
  rename_i h1
  intro hb pg hp
  subst hb
  exact unmap_prot h1 hp

theorem sysUnmapTrail_gone {p n : Nat} {v : Nat} {σ : St} {tl : Tl} : (sysUnmapTrail p n).Ends v σ tl fun σ' _ b =>
    b = false → ∀ pg, σ'.vm.prot pg ≠ .unmapped → σ.vm.prot pg ≠ .unmapped ∧ ¬ inPages p n pg := by
  refine Prog.Ends.act fun ch σ' tl' b _ hf => Prog.Ends.ret ?_
  split at hf <;> cases hf
  rename_i h1
  intro hb pg hp
  subst hb
  exact unmap_prot h1 hp

/-- The ends of a mapping are released. -/
theorem trimMapping_left {real n lead base size guard trail v : Nat} {σ : St} {tl : Tl} (hl : lead = 0 → real % PAGE = 0) (ht : trail = 0 → (base + size + guard) % PAGE = 0) :
    (trimMapping real n lead base size guard trail).Ends v σ tl fun σ' _ o => ∀ p, o = some p → p = base ∧
      ∀ pg, σ'.vm.prot pg ≠ .unmapped → σ.vm.prot pg ≠ .unmapped ∧ ¬ inPages real lead pg ∧ ¬ inPages (base + size + guard) trail pg := by
  have e0 : ∀ {x : Nat} pg, x % PAGE = 0 → ¬ inPages x 0 pg := fun pg h => by unfold inPages; omega
  unfold trimMapping
  refine Prog.Ends.bind (Prog.Ends.weaken (Q := fun σ1 _ b => b = false → ∀ pg, σ1.vm.prot pg ≠ .unmapped → σ.vm.prot pg ≠ .unmapped ∧ ¬ inPages real lead pg) ?_ fun σ1 tl1 b h1 => ?_)
  · by_cases e : lead ≠ 0
    · rw [if_pos e]; exact sysUnmap_gone
    · rw [if_neg e]
      have e : lead = 0 := by omega
      refine Prog.Ends.ret fun _ pg hp => ⟨hp, ?_⟩
      rw [e]; exact e0 pg (hl e)
  cases b with
  | true => exact Prog.Ends.bind fun _ _ _ _ _ => Prog.Ends.ret fun p e => by cases e
  | false =>
    rw [if_neg (by simp)]
    refine Prog.Ends.bind (Prog.Ends.weaken (Q := fun σ2 _ b => b = false → ∀ pg, σ2.vm.prot pg ≠ .unmapped → σ1.vm.prot pg ≠ .unmapped ∧ ¬ inPages (base + size + guard) trail pg) ?_ fun σ2 tl2 b h2 => ?_)
    · by_cases e : trail ≠ 0
      · rw [if_pos e]; exact sysUnmapTrail_gone
      · rw [if_neg e]
        have e : trail = 0 := by omega
        refine Prog.Ends.ret fun _ pg hp => ⟨hp, ?_⟩
        rw [e]; exact e0 pg (ht e)
    cases b with
    | true => exact Prog.Ends.bind fun _ _ _ _ _ => Prog.Ends.ret fun p e => by cases e
    | false =>
      rw [if_neg (by simp)]
      refine Prog.Ends.ret fun p e => ?_
      cases e
      refine ⟨rfl, fun pg hp => ?_⟩
      obtain ⟨h3, h4⟩ := h2 rfl pg hp
      obtain ⟨h5, h6⟩ := h1 rfl pg h3
      exact ⟨h5, h6, h4⟩

/-- What is mapped for a block with an alignment of more than a page. -/
theorem mapAligned_left {size guard e v : Nat} {σ : St} {tl : Tl} (hg : guard % PAGE = 0) (hg1 : PAGE ≤ guard) (hsm : size % PAGE = 0) (he : 12 ≤ e) :
    (mapAligned size (2 ^ e) guard (size + (2 ^ e - PAGE)) (size + (2 ^ e - PAGE) + guard + guard)).Ends v σ tl fun σ' _ o => ∀ p, o = some p →
      p % PAGE = 0 ∧ guard ≤ p ∧ ∀ pg, σ'.vm.prot pg ≠ .unmapped → σ.vm.prot pg ≠ .unmapped ∨ inPages (p - guard) (size + guard + guard) pg := by
  unfold mapAligned
  generalize hn : size + (2 ^ e - PAGE) + guard + guard = n
  refine Prog.Ends.bind (sysMap_at.weaken fun σ1 tl1 o h1 => ?_)
  cases o with
  | none => exact Prog.Ends.ret fun p e => by cases e
  | some real =>
    obtain ⟨h1, h2, h3⟩ := h1 real rfl
    obtain ⟨lead, hl, hl1, hl2, hl3, hl4, hl5⟩ := align_lead (usable := real + guard) (size := size) he (by omega) hsm (by omega)
    simp only
    rw [hl, hl4]
    refine Prog.Ends.bind (sysProtect_mapped.weaken fun σ2 tl2 b h4 => ?_)
    cases b with
    | true => exact Prog.Ends.bind fun _ _ _ _ _ => Prog.Ends.ret fun p e => by cases e
    | false =>
      rw [if_neg (by simp)]
      refine (trimMapping_left (fun _ => h1) (fun _ => by omega)).weaken fun σ3 tl3 o h5 p hp => ?_
      obtain ⟨rfl, h5⟩ := h5 p hp
      refine ⟨by omega, by omega, fun pg hpg => ?_⟩
      obtain ⟨k1, k2, k3⟩ := h5 pg hpg
      rcases h4.2 rfl pg k1 with k4 | k4
      · rcases h3 pg k4 with k5 | k5
        · exact Or.inl k5
        · right; unfold inPages at *; omega
      · right; unfold inPages at *; omega

theorem allocatePagesAligned_left {size guard e v : Nat} {σ : St} {tl : Tl} (hg : guard % PAGE = 0) (hg1 : PAGE ≤ guard) (hlt : size < W64) (he : 12 ≤ e) (he' : e < 64) :
    (allocatePagesAligned size (2 ^ e) guard).Ends v σ tl fun σ' _ o => ∀ p, o = some p →
      ∀ pg, σ'.vm.prot pg ≠ .unmapped → σ.vm.prot pg ≠ .unmapped ∨ inPages (p - guard) (size + guard + guard) pg := by
  have hA : PAGE ≤ 2 ^ e := Nat.pow_le_pow_right (n := 2) (by decide) he
  have hAlt : 2 ^ e < W64 := Nat.pow_lt_pow_right (a := 2) (by decide) he'
  unfold allocatePagesAligned
  simp only
  by_cases h1 : pageAlign size = 0
  · rw [if_pos h1]; exact Prog.Ends.bind fun _ _ _ _ _ => Prog.Ends.ret fun p e => by cases e
  rw [if_neg h1, sub64_of_le hAlt hA]
  have hpu : pageAlign size = pageUp size := by
    refine pageAlign_of_lt ?_
    by_contra hc
    have : (size + 4095) % W64 < PAGE := by omega
    apply h1
    rw [pageAlign_eq, Nat.div_eq_of_lt this, Nat.zero_mul]
  generalize hd : pageAlign size + (2 ^ e - PAGE) = d
  by_cases h2 : W64 ≤ d
  · rw [if_pos h2]; exact Prog.Ends.bind fun _ _ _ _ _ => Prog.Ends.ret fun p e => by cases e
  rw [if_neg h2]
  cases hag : addGuards d guard with
  | none => exact Prog.Ends.bind fun _ _ _ _ _ => Prog.Ends.ret fun p e => by cases e
  | some n =>
    obtain ⟨rfl, hlt⟩ := addGuards_some hag
    subst hd
    refine (mapAligned_left hg hg1 (pageAlign_mod _) he).weaken fun σ' tl' o h p hp pg hpg => ?_
    obtain ⟨k1, k2, k3⟩ := h p hp
    refine (k3 pg hpg).imp id fun k => ?_
    rw [hpu] at k
    unfold inPages pageUp at *
    omega

theorem overAligned_left {ro : Ro} {e n v : Nat} {σ : St} {tl : Tl} (he : 12 ≤ e) (he' : e < 64) (hn : n < W64) :
    (allocateOverAligned ro (2 ^ e) n).Ends v σ tl fun σ' _ o => ∀ p, o = some p → GuardLeft ro v σ σ' p := by
  unfold allocateOverAligned
  simp only
  split
  · exact Prog.Ends.ret fun p e => by cases e
  · rename_i hz
    have hlt := (getLargeSizeClass_ok ro.g hn hz).2.1
    refine Prog.Ends.bind (critical_ends fun ch σ1 e1 gd hv hf tl1 => ?_)
    unfold guardSize at hf
    rw [hv] at hf
    cases hf
    have hg : (v % max 1 (getLargeSizeClass ro.g n / 4096 / ro.g.guardSizeDivisor) + 1) * 4096 % PAGE = 0 := Nat.mul_mod_left _ _
    have hg1 : PAGE ≤ (v % max 1 (getLargeSizeClass ro.g n / 4096 / ro.g.guardSizeDivisor) + 1) * 4096 := by omega
    refine Prog.Ends.bind ((allocatePagesAligned_left hg hg1 hlt he he').weaken fun σ2 tl2 o h2 => ?_)
    exact (finishLarge_left h2).weaken fun σ3 tl3 o h p e => Or.inr ⟨n, by rw [← e]; exact h⟩

theorem unseal_ends {β : Type} {k : Unit → Prog β} {v : Nat} {σ : St} {tl : Tl} {Q : St → Tl → β → Prop}
    (h : ∀ tl', (k ()).Ends v σ tl' Q) : (unsealMeta >>= k).Ends v σ tl Q := by
  refine Prog.Ends.bind (Prog.Ends.act fun ch σ1 tl1 _ _ e1 => Prog.Ends.ret ?_)
  cases e1
  exact h _

theorem seal_ends {β : Type} {k : Unit → Prog β} {v : Nat} {σ : St} {tl : Tl} {Q : St → Tl → β → Prop}
    (h : ∀ tl', (k ()).Ends v σ tl' Q) : (sealMeta >>= k).Ends v σ tl Q := by
  refine Prog.Ends.bind (Prog.Ends.act fun ch σ1 tl1 _ _ e1 => Prog.Ends.ret ?_)
  cases e1
  exact h _

theorem alloc_left {ro : Ro} {a n v : Nat} {σ : St} {tl : Tl} :
    (alloc ro a n).Ends v σ tl fun σ' _ o => ∀ p, o = some p → GuardLeft ro v σ σ' p := by
  unfold alloc
  exact unseal_ends fun tl1 => Prog.Ends.bind (allocate_left.weaken fun σ2 tl2 o h => seal_ends fun tl3 => Prog.Ends.ret h)

theorem allocateAligned_left {ro : Ro} {a al n mn v : Nat} {σ : St} {tl : Tl} (hal : al < W64) (hn : n < W64) (hmn : 0 < mn) :
    (allocateAligned ro a al n mn).Ends v σ tl fun σ' _ o => ∀ p, o = .ok p → GuardLeft ro v σ σ' p := by
  have key : ∀ m, (allocate ro a m >>= fun o => match o with
      | none => (return .error ENOMEM : Prog (Except Errno Nat))
      | some p => return .ok p).Ends v σ tl fun σ' _ o => ∀ p, o = .ok p → GuardLeft ro v σ σ' p := fun m => by
    refine Prog.Ends.bind (allocate_left.weaken fun σ2 tl2 o h => ?_)
    cases o with
    | none => exact Prog.Ends.ret fun p e => by cases e
    | some q => exact Prog.Ends.ret fun p e => by cases e; exact h _ rfl
  unfold allocateAligned
  split
  · exact Prog.Ends.ret fun p e => by cases e
  · split
    · split
      · split
        · intro chs σ' tl' o e; cases e
        · exact key _
      · exact key _
    · rename_i h1 h2
      simp only [not_or, not_not, Nat.not_lt] at h1
      obtain ⟨e, he, rfl⟩ := pow_of_mask hal (by omega) h1.1
      have he2 : 12 ≤ e := by
        by_contra hc
        have : 2 ^ e ≤ 2 ^ 12 := Nat.pow_le_pow_right (by decide) (by omega)
        exact h2 this
      refine Prog.Ends.bind ((overAligned_left he2 he hn).weaken fun σ2 tl2 o h => ?_)
      cases o with
      | none => exact Prog.Ends.ret fun p e => by cases e
      | some q => exact Prog.Ends.ret fun p e => by cases e; exact h _ rfl

theorem allocAligned_left {ro : Ro} {a al n mn v : Nat} {σ : St} {tl : Tl} (hal : al < W64) (hn : n < W64) (hmn : 0 < mn) :
    (allocAligned ro a al n mn).Ends v σ tl fun σ' _ o => ∀ p, o = .ok p → GuardLeft ro v σ σ' p := by
  unfold allocAligned
  exact unseal_ends fun tl1 => Prog.Ends.bind ((allocateAligned_left hal (adjust_lt hn) hmn).weaken fun σ2 tl2 o h => seal_ends fun tl3 => Prog.Ends.ret h)

theorem allocAlignedSimple_left {ro : Ro} {a al n v : Nat} {σ : St} {tl : Tl} (hal : al < W64) (hn : n < W64) :
    (allocAlignedSimple ro a al n).Ends v σ tl fun σ' _ o => ∀ p, o = some p → GuardLeft ro v σ σ' p := by
  unfold allocAlignedSimple
  refine Prog.Ends.bind ((allocAligned_left hal hn (by decide)).weaken fun σ2 tl2 o h => ?_)
  cases o with
  | error e => exact Prog.Ends.bind fun _ _ _ _ _ => Prog.Ends.ret fun p e => by cases e
  | ok q => exact Prog.Ends.ret fun p e => by cases e; exact h _ rfl

theorem hCalloc_left {ro : Ro} {a n k v : Nat} {σ : St} {tl : Tl} :
    (hCalloc ro a n k).Ends v σ tl fun σ' _ o => ∀ p, o = some p → GuardLeft ro v σ σ' p := by
  unfold hCalloc
  split
  · exact Prog.Ends.bind fun _ _ _ _ _ => Prog.Ends.ret fun p e => by cases e
  · refine Prog.Ends.bind (alloc_left.weaken fun σ2 tl2 o h => ?_)
    cases o with
    | none => exact Prog.Ends.ret fun p e => by cases e
    | some q =>
      simp only
      split
      · refine Prog.Ends.bind (Prog.Ends.act fun ch σ3 tl3 _ _ e3 => Prog.Ends.ret (Prog.Ends.ret fun p e => ?_))
        split at e3 <;> cases e3
        rcases h p e with h | ⟨m, h⟩
        · exact Or.inl h
        · exact Or.inr ⟨m, h⟩
      · exact Prog.Ends.ret h

theorem ends_retPtr {P : Prog (Option Nat)} {v : Nat} {σ : St} {tl : Tl} {A : St → Nat → Prop}
    (h : P.Ends v σ tl fun σ' _ o => ∀ p, o = some p → A σ' p) :
    (P >>= fun o => (return retPtr o : Prog Ret)).Ends v σ tl fun σ' _ x => ∀ p, x.block = some p → A σ' p :=
  Prog.Ends.bind (h.weaken fun _ _ _ h1 => Prog.Ends.ret fun p e => h1 p (block_retPtr e))

theorem call_left {ro : Ro} {a v : Nat} {c : Call} {i : Info} {σ : St} {tl : Tl} (hok : c.Ok) (hr : c.request = some i) :
    (c.prog ro a).Ends v σ tl fun σ' _ x => ∀ p, x.block = some p → GuardLeft ro v σ σ' p := by
  cases c <;> cases hr <;> unfold Call.prog
  · exact ends_retPtr alloc_left
  · exact ends_retPtr hCalloc_left
  · refine Prog.Ends.bind ((allocAligned_left hok.1 hok.2 (by decide)).weaken fun _ _ o h1 => Prog.Ends.ret fun p e => h1 p ?_)
    cases o with
    | error => cases e
    | ok => cases e; rfl
  · exact ends_retPtr (allocAlignedSimple_left hok.1 hok.2)
  · exact ends_retPtr (allocAlignedSimple_left (by decide) hok)
  · refine ends_retPtr ?_
    unfold hPvalloc
    split
    · exact Prog.Ends.bind fun _ _ _ _ _ => Prog.Ends.ret fun p e => by cases e
    · exact allocAlignedSimple_left (by decide) (by rw [pageAlign_eq]; omega)

section
variable {g : Cfg} {ro : Ro} {ar : Nat → Nat} {calm : Bool} {D : Client} {h : List Ev} {s s' : Sys} {t : Nat} {chs : Nat → Choice}

/-- C70, partial: for all functions that allocate except `realloc`. If a call returns a large block `p` (a block outside the region divided among the size classes), of usable
size `u`, then the bounded random number `v` drawn by the call decides how long the guards are: the `k` pages before the block and the `k` pages after the last page of the
block are inaccessible, where `k` is `1 + v % m` and `m` is the number of whole pages of the block divided by the configured divisor (at least 1); and the call has mapped nothing
apart from the block and these guards. -/
theorem c70_guards_partial (hg : Good g ar) (r : Reach g ro ar calm D h s) {c : Call} {x : Ret} {i : Info} {p u v : Nat} (hok : c.Ok) (hr : c.request = some i)
    (he : ∀ j, Env calm (chs j)) (hc : s.call ro ar t c (regionDraw chs v) = .ok (s', x)) (hx : x.block = some p) (hl : p < ro.slabStart ∨ ro.slabEnd ≤ p)
    (hu : Usable ro s'.σ p u) :
    let k := 1 + v % max 1 (u / 4096 / g.guardSizeDivisor)
    let e := p + (u + 4095) / 4096 * 4096
    k * 4096 ≤ p ∧ (∀ x, p ≤ x + k * 4096 → x < p → s'.guarded x) ∧ (∀ x, p ≤ x → x < e → s'.access x) ∧
      (∀ x, e ≤ x → x < e + k * 4096 → s'.guarded x) ∧
      (∀ x, s'.reserved x → ¬ s.reserved x → p ≤ x + k * 4096 ∧ x < e + k * 4096) := by
  obtain ⟨hro, rfl⟩ := r.roOk hg
  obtain ⟨w, w', C, _⟩ := r.called (chs := regionDraw chs v) hg hok (fun j => he j) hc
  have hL : GuardLeft ro v s.σ s'.σ p := by
    unfold Sys.call at hc
    split at hc <;> cases hc
    rename_i h1
    exact call_left hok hr _ _ _ _ h1 p hx
  have I := C.post.linked.inv
  have hn : ∀ n, c ≠ .realloc p n := fun n e => by rw [e] at hr; cases hr
  have H := C.res.handed hro hok hx hn
  rw [← C.post.σ] at hu
  replace hu := hu.is hro C.post.linked ((C.post.linked.blk p).mp H.blk)
  have hnone := c02_new_block hg r (chs := regionDraw chs v) hok (fun j => he j) hc hr hx
  have hreg : ∃ gd, w'.σ.rt.Has ⟨p, u, gd⟩ := by
    rcases hu with ⟨a, c, i, k, h3, _⟩ | h3
    · have h4 := h3.inSlab hro I
      unfold Ro.inSlab at h4
      simp only [Bool.and_eq_true, decide_eq_true_eq] at h4
      omega
    · exact h3
  obtain ⟨gd, hgd⟩ := hreg
  have hrt : w'.σ.rt = s'.σ.rt := by rw [C.post.σ]
  rcases hL with hL | ⟨n, hL⟩
  · exfalso
    rw [hrt, hL, ← C.pre.σ] at hgd
    have := (C.pre.linked.blk p).mp ((C.pre.linked.inv.blk p).mpr (Or.inr ⟨_, _, hgd⟩))
    rw [hnone] at this
    cases this
  obtain ⟨⟨j, hj⟩, hmap⟩ := hL p rfl
  have hp : p ≠ 0 := hgd.1
  have hhas : w'.σ.rt.Has ⟨p, getLargeSizeClass ro.g n, (v % max 1 (getLargeSizeClass ro.g n / 4096 / ro.g.guardSizeDivisor) + 1) * 4096⟩ := by
    refine ⟨hp, j, ?_, by rw [hrt]; exact hj⟩
    by_contra hlt
    have h2 := I.rt.outside j (by omega)
    rw [hrt, hj] at h2
    exact hp h2
  obtain rfl := hu.uniq hro I (Or.inr ⟨_, hhas⟩)
  generalize getLargeSizeClass ro.g n = u at hgd hhas hmap hu ⊢
  have R := I.reg _ hhas
  have r1 := R.pmod
  have r4 := R.lo
  simp only at r1 r4
  have eE := C.post.linked.eff p
  simp only
  rw [Nat.add_comm 1]
  have e0 : (u + 4095) / 4096 * 4096 = pageUp u := rfl
  rw [e0]
  have e1 : pageUp u % 4096 = 0 := Nat.mul_mod_left _ _
  have e2 : u ≤ pageUp u ∧ pageUp u ≤ u + 4095 := by unfold pageUp; omega
  generalize v % max 1 (u / 4096 / ro.g.guardSizeDivisor) + 1 = k at hhas r4 hmap ⊢
  have hv : w'.σ.vm = s'.σ.vm := by rw [C.post.σ]
  replace r4 : k * 4096 + 4096 ≤ p := r4
  clear hj C he hc hu hgd
  refine ⟨le_trans (Nat.le_add_right _ _) r4, fun x k1 k2 => ?_, fun x k1 k2 => ?_, fun x k1 k2 => ?_, fun x k1 k2 => ?_⟩
  · show s'.σ.vm.prot _ = _
    rw [← hv]
    have h1 : inPages (p - k * 4096) (k * 4096) (x / 4096) := by unfold inPages; omega
    exact I.regLo _ _ hhas h1
  · show s'.σ.vm.prot _ = _
    rw [← hv]
    refine I.regRw _ _ hhas (inPages_of_pageUp R.pmod ?_)
    rw [effSize_eq (r := ⟨p, u, k * 4096⟩) eE]; exact ⟨k1, k2⟩
  · show s'.σ.vm.prot _ = _
    rw [← hv]
    have h1 : inPages (p + pageUp u) (k * 4096) (x / 4096) := by
      generalize pageUp u = q at *
      unfold inPages; omega
    refine I.regHi _ _ hhas ?_
    rw [effSize_eq (r := ⟨p, u, k * 4096⟩) eE]
    exact h1
  · rcases hmap (x / 4096) k1 with h1 | h1
    · exact absurd h1 k2
    · replace h1 : (p - k * 4096) / 4096 ≤ x / 4096 ∧ x / 4096 < (p - k * 4096 + (u + k * 4096 + k * 4096) + 4095) / 4096 := h1
      generalize hq : pageUp u = q at *
      unfold pageUp at hq
      omega

end

/-- A block with an alignment of two pages: with the random number 2 there are three guard pages on each side. -/
example : ∃ h s s', Reach (exCfg false false) (exRo false false) (fun t => t % 4) false anyClient h s ∧ (∀ j : Nat, Env false ((fun _ => exAt exMapAt) j)) ∧
    (Call.alignedAlloc 8192 200000).Ok ∧ (Call.alignedAlloc 8192 200000).request = some ⟨200000, some 8192⟩ ∧
    s.call (exRo false false) (fun t => t % 4) 0 (.alignedAlloc 8192 200000) (regionDraw (fun _ => exAt exMapAt) 2) = .ok (s', .ptr (exMapAt + 4 * 4096)) ∧
    (exRo false false).slabEnd ≤ exMapAt + 4 * 4096 ∧ Usable (exRo false false) s'.σ (exMapAt + 4 * 4096) 229376 := by
  obtain ⟨h, s, h1, h2⟩ := ex_any (stats := false) (sealed := false) (calm := false) [.call 0 (.malloc 100) 0]
    (fun _ s => match s.call (exRo false false) (fun t => t % 4) 0 (.alignedAlloc 8192 200000) (regionDraw (fun _ => exAt exMapAt) 2) with
        | .ok (s1, .ptr p) => decide (p = exMapAt + 4 * 4096) && decide (usableB (exRo false false) s1.σ (exMapAt + 4 * 4096) = some 229376)
        | _ => false) (by decide +kernel)
  split at h2 <;> try cases h2
  rename_i s1 p1 e1
  simp only [Bool.and_eq_true, decide_eq_true_eq] at h2
  obtain ⟨rfl, h2⟩ := h2
  exact ⟨h, s, s1, h1, fun _ => exAt_env _ _, ⟨by decide, by decide⟩, rfl, e1, by decide, usableB_usable h2⟩

/-- A block from `calloc`: with the random number 5 there are six guard pages on each side. -/
example : ∃ h s s', Reach (exCfg false false) (exRo false false) (fun t => t % 4) false anyClient h s ∧ (∀ j : Nat, Env false ((fun _ => exAt exMapAt) j)) ∧
    (Call.calloc 2000 100).Ok ∧ (Call.calloc 2000 100).request = some ⟨200000, none⟩ ∧
    s.call (exRo false false) (fun t => t % 4) 0 (.calloc 2000 100) (regionDraw (fun _ => exAt exMapAt) 5) = .ok (s', .ptr (exMapAt + 6 * 4096)) ∧
    (exRo false false).slabEnd ≤ exMapAt + 6 * 4096 ∧ Usable (exRo false false) s'.σ (exMapAt + 6 * 4096) 229376 := by
  obtain ⟨h, s, h1, h2⟩ := ex_any (stats := false) (sealed := false) (calm := false) [.call 0 (.malloc 100) 0]
    (fun _ s => match s.call (exRo false false) (fun t => t % 4) 0 (.calloc 2000 100) (regionDraw (fun _ => exAt exMapAt) 5) with
        | .ok (s1, .ptr p) => decide (p = exMapAt + 6 * 4096) && decide (usableB (exRo false false) s1.σ (exMapAt + 6 * 4096) = some 229376)
        | _ => false) (by decide +kernel)
  split at h2 <;> try cases h2
  rename_i s1 p1 e1
  simp only [Bool.and_eq_true, decide_eq_true_eq] at h2
  obtain ⟨rfl, h2⟩ := h2
  exact ⟨h, s, s1, h1, fun _ => exAt_env _ _, ⟨by decide, by decide⟩, rfl, e1, by decide, usableB_usable h2⟩

/-- A large block, with guards of one page or of several pages, depending on the random number. -/
example : ∃ h s s1 s2, Reach (exCfg false false) (exRo false false) (fun t => t % 4) false anyClient h s ∧ (exCfg false false).maxSlab < 200000 + (exCfg false false).canarySize ∧
    (∀ _ : Nat, Env false (exAt exMapAt)) ∧
    s.call (exRo false false) (fun t => t % 4) 0 (.malloc 200000) (regionDraw (fun _ => exAt exMapAt) 0) = .ok (s1, .ptr (exMapAt + 4096)) ∧
    Usable (exRo false false) s1.σ (exMapAt + 4096) 229376 ∧
    s.call (exRo false false) (fun t => t % 4) 0 (.malloc 200000) (regionDraw (fun _ => exAt exMapAt) 5) = .ok (s2, .ptr (exMapAt + 6 * 4096)) ∧
    Usable (exRo false false) s2.σ (exMapAt + 6 * 4096) 229376 := by
  obtain ⟨h, s, h1, h2⟩ := ex_any (stats := false) (sealed := false) (calm := false) [.call 0 (.malloc 100) 0]
    (fun _ s => (match s.call (exRo false false) (fun t => t % 4) 0 (.malloc 200000) (regionDraw (fun _ => exAt exMapAt) 0) with
        | .ok (s1, .ptr p) => decide (p = exMapAt + 4096) && decide (usableB (exRo false false) s1.σ (exMapAt + 4096) = some 229376)
        | _ => false) &&
      match s.call (exRo false false) (fun t => t % 4) 0 (.malloc 200000) (regionDraw (fun _ => exAt exMapAt) 5) with
        | .ok (s1, .ptr p) => decide (p = exMapAt + 6 * 4096) && decide (usableB (exRo false false) s1.σ (exMapAt + 6 * 4096) = some 229376)
        | _ => false) (by decide +kernel)
  rw [Bool.and_eq_true] at h2
  obtain ⟨h2, h3⟩ := h2
  split at h2 <;> try cases h2
  rename_i s1 p1 e1
  split at h3 <;> try cases h3
  rename_i s2 p2 e2
  simp only [Bool.and_eq_true, decide_eq_true_eq] at h2 h3
  obtain ⟨rfl, h2⟩ := h2
  obtain ⟨rfl, h3⟩ := h3
  exact ⟨h, s, s1, s2, h1, by decide, fun _ => exAt_env _ _, e1, usableB_usable h2, e2, usableB_usable h3⟩

end HM
