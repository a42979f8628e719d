import Verif.Isolate
import Verif.FineInv
import Verif.Props.DataBlind
/-
C73. What happens in some size classes does not depend on what happens elsewhere. Some threads (those in `T`) allocate and free blocks of some size classes (those in
`S`: pairs of an arena and a size class), and the other threads use other size classes, or large blocks. Then the results of the calls of the threads in `T` do not
depend on what the other threads do: in two executions in which the threads in `T` make the same calls with the same random numbers and answers of the kernel, the calls
of the threads in `T` return the same addresses and end in the same way, whatever the others allocate, free and resize, and however the threads are interleaved.
-/
namespace HM

variable {g : Cfg} {ro : Ro} {ar : Nat → Nat} {calm : Bool} {S : Nat → Nat → Bool} {T : Nat → Bool} {rd : Bool}

/-! ### Executions, with the moves that lead there -/

/-- One step of the system, as in `CStep`, with the move that it is. -/
inductive XStep (ro : Ro) (ar : Nat → Nat) (calm : Bool) (h : List CEv) (s : CSys) : Move → List CEv → CSys → Prop where
  | invoke (t : Nat) (c : Call) (b : Nat) (hi : s.run t = none) (hok : c.Ok) (hl : Lends ro (hold h) s.σ b c) :
      XStep ro ar calm h s (.inv t c) (.inv t c b :: h) ⟨s.σ, s.tl, upd s.run t (some (c, c.prog ro (ar t))), upd s.start t s.σ⟩
  | step (t : Nat) {c : Call} {β : Type} {l : Option Sect} {f : Choice → St → Tl → Res (St × Tl × β)} {k : β → Prog Ret}
      (hc : s.run t = some (c, .act (l := l) f k)) {ch : Choice} (he : CEnv calm c ch) {σ' : St} {tl' : Tl} {b : β} (hf : f ch s.σ (s.tl t) = .ok (σ', tl', b)) :
      XStep ro ar calm h s (.go t ch) h ⟨σ', upd s.tl t tl', upd s.run t (some (c, k b)), s.start⟩
  | ret (t : Nat) {c : Call} {x : Ret} (hc : s.run t = some (c, .ret x)) :
      XStep ro ar calm h s (.ret t) (.ret t c x :: h) ⟨s.σ, s.tl, upd s.run t none, s.start⟩
  | store (x : Nat) (v : BitVec 8) {p u : Nat} (hp : ((hold h).live p).isSome) (hu : Usable ro s.σ p u) (h1 : p ≤ x) (h2 : x < p + u) :
      XStep ro ar calm h s (.store x v) (.store x v :: h) ⟨{ s.σ with vm := s.σ.vm.appStore x v }, s.tl, s.run, s.start⟩
  | errno (t : Nat) (e : Errno) (hi : s.run t = none) :
      XStep ro ar calm h s (.errno t e) (.errno t e :: h) ⟨s.σ, upd s.tl t { s.tl t with errno := e }, s.run, s.start⟩
  | fork (t : Nat) (hi : s.run t = none) :
      XStep ro ar calm h s (.fork t) (.fork t :: h) ⟨s.σ, fun u => if u = t then s.tl t else ⟨0, false⟩, fun _ => none, s.start⟩
  | other (pg : Nat) (pr : Prot) (data : Nat → BitVec 8) (hp : cforeign h pg = true ∨ s.σ.vm.prot pg = .unmapped) :
      XStep ro ar calm h s (.other pg pr data) (.foreign pg (pr != .unmapped) :: h) ⟨{ s.σ with vm := s.σ.vm.foreign pg pr data }, s.tl, s.run, s.start⟩

/-- An execution from `s0`, where the history was `h0`: the moves (latest first), and the history and the state that they lead to. -/
inductive Exec (ro : Ro) (ar : Nat → Nat) (calm : Bool) (h0 : List CEv) (s0 : CSys) : List Move → List CEv → CSys → Prop where
  | nil : Exec ro ar calm h0 s0 [] h0 s0
  | cons {A : List Move} {h h' : List CEv} {s s' : CSys} {m : Move} (e : Exec ro ar calm h0 s0 A h s) (st : XStep ro ar calm h s m h' s') : Exec ro ar calm h0 s0 (m :: A) h' s'

/-- These are the steps of `CStep`. -/
theorem XStep.toCStep {h h' : List CEv} {s s' : CSys} {m : Move} (st : XStep ro ar calm h s m h' s') : CStep ro ar calm h s h' s' := by
  cases st with
  | invoke t c b hi hok hl => exact .invoke t c b hi hok hl
  | step t hc he hf => exact .step t hc he hf
  | ret t hc => exact .ret t hc
  | store x v hp hu h1 h2 => exact .store x v hp hu h1 h2
  | errno t e hi => exact .errno t e hi
  | fork t hi => exact .fork t hi
  | other pg pr data hp => exact .other pg pr data hp

/-- Every step of `CStep` is one of these. -/
theorem CStep.toXStep {h h' : List CEv} {s s' : CSys} (st : CStep ro ar calm h s h' s') : ∃ m, XStep ro ar calm h s m h' s' := by
  cases st with
  | invoke t c b hi hok hl => exact ⟨_, .invoke t c b hi hok hl⟩
  | step t hc he hf => exact ⟨_, .step t hc he hf⟩
  | ret t hc => exact ⟨_, .ret t hc⟩
  | store x v hp hu h1 h2 => exact ⟨_, .store x v hp hu h1 h2⟩
  | errno t e hi => exact ⟨_, .errno t e hi⟩
  | fork t hi => exact ⟨_, .fork t hi⟩
  | other pg pr data hp => exact ⟨_, .other pg pr data hp⟩

/-- Every reachable state is reached by such an execution. -/
theorem CReach.exec {h : List CEv} {s : CSys} (r : CReach g ro ar calm h s) :
    ∃ σ0 tl A, Initialised g ro σ0 ∧ (∀ t, (tl t).unsealed = false) ∧ Exec ro ar calm [] ⟨σ0, tl, fun _ => none, fun _ => σ0⟩ A h s := by
  refine r.induction (M := fun h s => ∃ σ0 tl A, Initialised g ro σ0 ∧ (∀ t, (tl t : Tl).unsealed = false) ∧ Exec ro ar calm [] ⟨σ0, tl, fun _ => none, fun _ => σ0⟩ A h s)
    (fun hi htl => ⟨_, _, [], hi, htl, .nil⟩) fun _ st ih => ?_
  obtain ⟨σ0, tl, A, h1, h2, h3⟩ := ih
  obtain ⟨m, hm⟩ := st.toXStep
  exact ⟨σ0, tl, m :: A, h1, h2, .cons h3 hm⟩

/-! ### What concerns the threads in `T` -/

/-- The move is one of a thread in `T`, or a store to a block of a size class in `S`, or a fork. -/
def Move.concerns (ro : Ro) (S : Nat → Nat → Bool) (T : Nat → Bool) : Move → Bool
  | .inv t _ | .go t _ | .ret t | .errno t _ => T t
  | .store x _ => ro.inArea S x
  | .fork _ => true
  | .other _ _ _ => false

/-- The calls of threads in `T` use size classes in `S` only, and those of the other threads use no size class in `S`. -/
def KeptApart (ro : Ro) (ar : Nat → Nat) (S : Nat → Nat → Bool) (T : Nat → Bool) (A : List Move) : Prop :=
  ∀ t c, .inv t c ∈ A → if T t then c.Inside ro S (ar t) else c.Outside ro S (ar t)

/-- The calls of threads in `T` that returned, in the order in which they did. -/
def returnedTo (T : Nat → Bool) (h : List CEv) : List Returned := (returned h).filter fun x => T x.1

theorem ClassMem.area (hro : RoOk ro) {w : World} (hi : GInv ro w) {a c x : Nat} (ha : a < ro.g.nArena) (hc : c < nClasses ro.g) (h : ClassMem ro a c x) :
    ro.inArea S x = S a c := by
  unfold Ro.inArea
  rw [(inSlab_iff hro hi x).mpr (hi.class_own hro ha hc h), hro.sizeClassOf ha hc (hro.region_cell ha hc (classMem_region hc h)), Bool.true_and]

/-- A section of a class outside of `S`, or of the region allocator, uses no part of `S`. -/
theorem uses_not_inS (hro : RoOk ro) {s : Sect} {σ : St} (hx : s.Exists ro) (hs : ∀ a c fr, s = .cls a c fr → S a c = false) {l : Cell} (h : InS ro S l) : ¬ s.uses ro σ l := by
  intro hu
  cases s with
  | regions _ => cases l <;> first | exact h.elim | exact hu.elim
  | cls a c fr =>
    have hn := hs a c fr rfl
    cases l with
    | regs => exact h.elim
    | sc a' c' =>
      obtain ⟨rfl, rfl⟩ := hu
      exact absurd (hn.symm.trans h.2.2) (by simp)
    | prot pg =>
      obtain ⟨a', c', h1, h2, h3, h4⟩ := h
      obtain ⟨rfl, rfl⟩ := classMem_inj hro h1 h2 hx.1 hx.2 h4 (uses_page hro hx.1 hx.2 hu)
      rw [hn] at h3; cases h3
    | mem x =>
      obtain ⟨a', c', h1, h2, h3, h4⟩ := h
      obtain ⟨rfl, rfl⟩ := classMem_inj hro h1 h2 hx.1 hx.2 h4 hu.1
      rw [hn] at h3; cases h3

/-- A section of a class in `S` uses only parts of `S`. -/
theorem uses_inS (hro : RoOk ro) {a c : Nat} {fr : Option Nat} {σ : St} (ha : a < ro.g.nArena) (hc : c < nClasses ro.g) (hS : S a c = true) {l : Cell}
    (h : (Sect.cls a c fr).uses ro σ l) : InS ro S l := by
  cases l with
  | regs => exact h.elim
  | sc a' c' => obtain ⟨rfl, rfl⟩ := h; exact ⟨ha, hc, hS⟩
  | prot pg => exact ⟨a, c, ha, hc, hS, uses_page hro ha hc h⟩
  | mem x => exact ⟨a, c, ha, hc, hS, h.1⟩

/-- What an action leaves alone. -/
theorem Local.keeps {w : World} {t : Nat} {β : Type} {l : Option Sect} {f : Choice → St → Tl → Res (St × Tl × β)} {tl : Tl} {ch : Choice} (hl : Local ro t l f tl w)
    (hf : Fair .conc w.G.env ch) {N : Cell → Prop} (hN : Noise ro t l w N w.σ) {r : St × Tl × β} (hr : f ch w.σ tl = .ok r) {c : Cell} (hc : N c) : r.1.agree w.σ c := by
  have e := St.eq_patch (σ := w.σ) (ν := w.σ) (N := N) fun c _ => St.agree.rfl
  have := hl.2 ch hf N w.σ hN
  rw [← e, hr] at this
  have this : r = (r.1.patch N w.σ, r.2) := this
  rw [this]
  exact St.patch_in hc

/-! ### One execution -/

/-- What is known about one execution: the invariant; threads outside of `T` hold no block of `S`; the programs in progress are those of calls as in `KeptApart`, and of `mallinfo`
in threads outside of `T` only if `rd`. -/
structure Side (ro : Ro) (calm : Bool) (S : Nat → Nat → Bool) (T : Nat → Bool) (rd : Bool) (n0 : Nat → Nat) (h : List CEv) (s : CSys) (w : World) : Prop where
  inv : CInv ro calm n0 h s w
  blk : ∀ t p, T t = false → w.G.blk p = .thr (t + 1) → ro.inArea S p = false
  ins : ∀ t c P, T t = true → s.run t = some (c, P) → P.StaysIn ro S fun _ => True
  out : ∀ t c P, T t = false → s.run t = some (c, P) → P.Avoids ro S rd

/-- Two states look the same to the threads in `T`. -/
structure Alike73 (ro : Ro) (S : Nat → Nat → Bool) (T : Nat → Bool) (h : List CEv) (s : CSys) (h' : List CEv) (s' : CSys) : Prop where
  cell : ∀ l, InS ro S l → s'.σ.agree s.σ l
  tl : ∀ t, T t = true → s'.tl t = s.tl t
  run : ∀ t, T t = true → s'.run t = s.run t
  ret : returnedTo T h' = returnedTo T h

theorem user_area (hro : RoOk ro) {w : World} (hi : GInv ro w) {a c p x : Nat} (ha : a < ro.g.nArena) (hc : c < nClasses ro.g) (hS : S a c = true) (hx : ClassMem ro a c x)
    (hu : UserByte ro w p x) : ro.inArea S p = true := by
  rcases hu with ⟨a', c', i, k, h1, h2, h3⟩ | ⟨sz, gd, h1, h3⟩
  · obtain ⟨hil, hkl, _⟩ := h1.lt hi
    obtain ⟨ha', hc', rfl, hl⟩ := h1
    obtain ⟨rfl, rfl⟩ := classMem_inj hro ha hc ha' hc' hx (slot_classMem hc' hil hkl (by unfold inRange at *; omega))
    rw [(slotAddr_classMem hc' hil hkl).area hro hi ha hc, hS]
  · have e1 := hi.class_own hro ha hc hx
    rw [hi.reg_body h1 (inPages_of_pageUp (hi.reg _ h1).pmod h3)] at e1
    exact absurd e1 (by simp)

/-- An action of a thread outside of `T` leaves `S` alone. -/
theorem Side.keeps (hro : RoOk ro) {n0 : Nat → Nat} {h : List CEv} {s : CSys} {w : World} (d : Side ro calm S T rd n0 h s w) {t : Nat} (ht : T t = false) {c : Call} {β : Type}
    {l : Option Sect} {f : Choice → St → Tl → Res (St × Tl × β)} {k : β → Prog Ret} (hc : s.run t = some (c, .act (l := l) f k)) {ch : Choice} (he : CEnv calm c ch)
    {r : St × Tl × β} (hr : f ch s.σ (s.tl t) = .ok r) {x : Cell} (hx : InS ro S x) : r.1.agree s.σ x := by
  obtain ⟨ch', hs, hch, _⟩ := d.inv.settle hc he
  have hl := (d.inv.wp hc).1 rfl
  have hσ : w.σ = s.σ := d.inv.σ
  have hav := d.out t _ _ ht hc
  rw [← hch, ← hσ] at hr
  rw [← hσ]
  have hi := d.inv.inv
  rcases hav.1 with hav | hav
  case inr => rw [hav.2 _ _ _ _ hr]; exact St.agree.rfl
  cases l with
  | some sec =>
    have hex : sec.Exists ro := by
      cases sec with
      | regions _ _ => trivial
      | cls a c fr =>
        rcases hl.1 a c fr rfl with h1 | h1
        · exact ⟨h1.1, h1.2.1⟩
        · exact absurd hr (h1.2 _ _ _)
    refine hl.keeps (d.inv.env ▸ hs.fair) (N := fun c => ¬ sec.uses ro w.σ c) (fun c h => not_not.mpr h) hr (uses_not_inS hro hex (fun a c fr e => ?_) hx)
    subst e
    exact (hav a c fr rfl).1 hex.1 hex.2
  | none =>
    refine hl.keeps (d.inv.env ▸ hs.fair) (N := InS ro S) ⟨fun pg hp => ?_, fun y hy => ?_⟩ hr hx
    · obtain ⟨a, c, h1, h2, h3, h4⟩ := hp
      have ho := hi.class_own hro h1 h2 h4
      rw [Nat.mul_div_cancel _ (by decide : 0 < PAGE)] at ho
      refine ⟨ho, hi.mapped pg (by rw [ho]; simp), fun p y hb hu e => ?_⟩
      have := user_area (S := S) hro hi h1 h2 h3 (classMem_page hro h1 h2 h4 (by rw [Nat.mul_div_cancel _ (by decide : 0 < PAGE)]; exact e)) hu
      rw [d.blk t p ht hb] at this; cases this
    · obtain ⟨a, c, h1, h2, h3, h4⟩ := hy
      refine ⟨hi.class_own hro h1 h2 h4, fun p hb hu => ?_⟩
      have := user_area (S := S) hro hi h1 h2 h3 h4 hu
      rw [d.blk t p ht hb] at this; cases this

/-- A held block is in a class of `S`, if its address is. -/
theorem held_live (hro : RoOk ro) {w : World} (hi : GInv ro w) {p : Nat} (hb : w.G.blk p ≠ .nobody) (hp : ro.inArea S p = true) :
    ∃ a c i k, IsSmall ro w.σ p a c i k ∧ S a c = true := by
  rcases (hi.blk p).mp hb with ⟨a, c, i, k, h1⟩ | ⟨sz, gd, h1⟩
  · obtain ⟨hil, hkl, _⟩ := h1.lt hi
    refine ⟨a, c, i, k, h1, ?_⟩
    obtain ⟨ha, hc, rfl, _⟩ := h1
    rwa [(slotAddr_classMem hc hil hkl).area hro hi ha hc] at hp
  · have := has_not_inSlab hro hi h1
    unfold Ro.inArea at hp
    rw [this] at hp; cases hp

/-- The bytes of a block are in the same area as its address. -/
theorem user_same_area (hro : RoOk ro) {w : World} (hi : GInv ro w) {p x : Nat} (hu : UserByte ro w p x) : ro.inArea S x = ro.inArea S p := by
  rcases hu with ⟨a, c, i, k, h1, h2, h3⟩ | ⟨sz, gd, h1, h3⟩
  · obtain ⟨hil, hkl, _⟩ := h1.lt hi
    obtain ⟨ha, hc, rfl, hl⟩ := h1
    rw [(slotAddr_classMem hc hil hkl).area hro hi ha hc, (slot_classMem hc hil hkl (by unfold inRange at *; omega)).area hro hi ha hc]
  · have e := hi.reg_body h1 (inPages_of_pageUp (hi.reg _ h1).pmod h3)
    unfold Ro.inArea
    rw [has_not_inSlab hro hi h1]
    cases ex : ro.inSlab x with
    | false => rfl
    | true => rw [inSlab_iff hro hi, e] at ex; cases ex

/-- A call of a thread outside of `T` is given no block of `S`. -/
theorem lent_outside (hro : RoOk ro) {n0 : Nat → Nat} {h : List CEv} {s : CSys} {w : World} (i : CInv ro calm n0 h s w) {c : Call} {b a : Nat} (hl : Lends ro (hold h) s.σ b c)
    (ho : c.Outside ro S a) (hb : ((hold h).live b).isSome = true) : ro.inArea S b = false := by
  have h0 : b ≠ 0 := by
    rintro rfl
    have := (i.app 0).mpr hb
    rw [blk_zero hro i.inv] at this; cases this
  cases c with
  | free p => rw [hl.1]; exact ho
  | freeSized p n => rw [hl.1]; exact ho
  | usableSize p => rw [hl.1]; exact ho
  | realloc p n => rw [hl.1]; exact ho.1
  | objectSize x =>
    rcases hl with ⟨_, e⟩ | ⟨_, u, hu, h1, h2⟩
    · exact absurd e h0
    · have hub : UserByte ro w b x := UsableIs.user' (app_eff i.inv ((i.app b).mpr hb)) ((i.usable_iff hro hb).mp hu) (by unfold inRange; omega)
      rw [← user_same_area hro i.inv hub]
      exact ho
  | _ => exact absurd hl h0

theorem returnedTo_cons_ret (T : Nat → Bool) (h : List CEv) (t : Nat) (c : Call) (x : Ret) :
    returnedTo T (.ret t c x :: h) = returnedTo T h ++ if T t then [(t, c, x)] else [] := by
  unfold returnedTo returned
  cases ht : T t <;> simp [ht]

/-- The step keeps what is known about the execution; and if it does not concern the threads in `T`, they see no difference. -/
theorem Side.step (hg : Good g ar) (hro : RoOk ro) (eg : ro.g = g) {n0 : Nat → Nat} {h h' : List CEv} {s s' : CSys} {w : World} (d : Side ro calm S T rd n0 h s w) {m : Move}
    (st : XStep ro ar calm h s m h' s') (hA : ∀ t c, m = .inv t c → if T t then c.Inside ro S (ar t) else c.Outside ro S (ar t)) (hI : rd = false → ∀ t, m ≠ .inv t .mallinfo) :
    (∃ n0' w', Side ro calm S T rd n0' h' s' w') ∧ (m.concerns ro S T = false → Alike73 ro S T h s h' s') := by
  have har : ∀ t, ar t < ro.g.nArena := fun t => by rw [eg]; exact hg.arena t
  cases st with
  | invoke t c b hi hok hl =>
    have hap := hA t c rfl
    refine ⟨?_, fun hm => ⟨fun _ _ => St.agree.rfl, fun _ _ => rfl, fun u hu => if_neg (by rintro rfl; rw [Move.concerns, hu] at hm; cases hm), by simp [returnedTo, returned]⟩⟩
    obtain ⟨w', h1, h2⟩ := d.inv.invoke hro har hi hok hl
    refine ⟨_, w', h1, fun u p hu hb => ?_, fun u c' P hu hr => ?_, fun u c' P hu hr => ?_⟩
    · rcases h2 with ⟨rfl, _⟩ | ⟨rfl, hlive⟩
      · exact d.blk u p hu hb
      · by_cases e : p = b
        · subst e
          rw [give_self] at hb
          have : u = t := by simpa using hb.symm
          subst this
          rw [hu] at hap
          exact lent_outside hro d.inv hl hap hlive
        · rw [give_other _ _ e] at hb; exact d.blk u p hu hb
    · by_cases e : u = t
      · subst e
        have hr : some (c, c.prog ro (ar u)) = some (c', P) := by simpa [upd] using hr
        cases hr
        rw [hu] at hap
        refine Call.staysIn hro (har u) _ hap ?_
        cases c with
        | realloc p n =>
          intro h0 x hx
          obtain ⟨j, hj, _⟩ := hl.2.resolve_left h0
          obtain ⟨a, cl, i, k, h3, h4⟩ := held_live (S := S) hro d.inv.inv (by rw [d.inv.live_app hj]; simp) (hap.1.resolve_left h0)
          obtain ⟨hil, hkl, _⟩ := h3.lt d.inv.inv
          have e := h3.cls hro d.inv.inv
          unfold Ro.slabUsableSize at hx
          rw [e] at hx
          refine ⟨a, cl, h3.1, h3.2.1, h4, slot_classMem h3.2.1 hil hkl ?_⟩
          rw [← h3.2.2.1]
          unfold Cfg.slotSize
          unfold inRange at *
          dsimp only at hx
          split <;> omega
        | _ => trivial
      · have hr : s.run u = some (c', P) := by simpa [upd, e] using hr
        exact d.ins u c' P hu hr
    · by_cases e : u = t
      · subst e
        have hr : some (c, c.prog ro (ar u)) = some (c', P) := by simpa [upd] using hr
        cases hr
        rw [hu] at hap
        exact Call.avoids hro _ hok hap fun e => by rintro rfl; exact hI e u rfl
      · have hr : s.run u = some (c', P) := by simpa [upd, e] using hr
        exact d.out u c' P hu hr
  | @step t c β l f k hc ch he σ' tl' b hf =>
    refine ⟨?_, fun hm => ⟨fun x hx => d.keeps hro hm hc he hf hx, fun u hu => if_neg ?_, fun u hu => if_neg ?_, rfl⟩⟩
    · obtain ⟨ch', hs, hch, _⟩ := d.inv.settle hc he
      have h1 := (d.inv.wp hc).2 _ (d.inv.env ▸ hs.fair)
      rw [hch, d.inv.σ, hf] at h1
      obtain ⟨G', h2, h3⟩ := h1
      have hrun : ∀ u c' P, upd s.run t (some (c, k b)) u = some (c', P) → u = t ∧ P = k b ∨ s.run u = some (c', P) := by
        intro u c' P hr
        unfold upd at hr
        split at hr
        · cases hr; exact .inl ⟨‹_›, rfl⟩
        · exact .inr hr
      refine ⟨n0, _, d.inv.act h2.toTrans (fun c' P e => by cases e; exact ⟨fun hp => ((d.inv.run t _ _ hc).1 hp).2 _, fun w' r => h3 w' r⟩) (fun e => by cases e), fun u p hu hb => ?_,
        fun u c' P hu hr => ?_, fun u c' P hu hr => ?_⟩
      · by_cases e : u = t
        · subst e
          cases hp : ro.inArea S p with
          | false => rfl
          | true =>
            have hi' := h2.inv
            obtain ⟨a, cl, i, j, h4, h5⟩ := held_live hro hi' (by rw [hb]; simp) hp
            have hsc : σ'.sc a cl = s.σ.sc a cl := d.keeps hro hu hc he hf (x := .sc a cl) ⟨h4.1, h4.2.1, h5⟩
            have h6 : IsSmall ro w.σ p a cl i j := ⟨h4.1, h4.2.1, h4.2.2.1, by rw [d.inv.σ, ← hsc]; exact h4.2.2.2⟩
            have h7 : w.G.blk p ≠ .nobody := (d.inv.inv.blk p).mpr (.inl ⟨_, _, _, _, h6⟩)
            by_cases h8 : w.G.blk p = .thr (u + 1)
            · rw [d.blk u p hu h8] at hp; cases hp
            · have := ((h2.same (w.G.blk p) h7 h8).blk p).mpr rfl
              exact absurd (this.symm.trans hb) h8
        · exact d.blk u p hu (((h2.same (.thr (u + 1)) (by simp) (by simpa using e)).blk p).mp hb)
      · rcases hrun u c' P hr with ⟨rfl, rfl⟩ | hr
        · exact (d.ins u _ _ hu hc).2 w ch (s.tl u) (σ', tl', b) d.inv.inv (by rw [d.inv.σ]; exact hf)
        · exact d.ins u c' P hu hr
      · rcases hrun u c' P hr with ⟨rfl, rfl⟩ | hr
        · exact (d.out u _ _ hu hc).2 b
        · exact d.out u c' P hu hr
    · rintro rfl; rw [Move.concerns, hu] at hm; cases hm
    · rintro rfl; rw [Move.concerns, hu] at hm; cases hm
  | @ret t c x hc =>
    refine ⟨?_, fun hm => ⟨fun _ _ => St.agree.rfl, fun _ _ => rfl, fun u hu => if_neg (by rintro rfl; rw [Move.concerns, hu] at hm; cases hm), ?_⟩⟩
    · obtain ⟨w', h1, h2⟩ := d.inv.ret hc
      have hrun : ∀ u c' P, upd s.run t none u = some (c', P) → s.run u = some (c', P) := by
        intro u c' P hr
        unfold upd at hr
        split at hr
        · cases hr
        · exact hr
      refine ⟨n0, w', h1, fun u p hu hb => ?_, fun u c' P hu hr => d.ins u c' P hu (hrun u c' P hr), fun u c' P hu hr => d.out u c' P hu (hrun u c' P hr)⟩
      rcases h2 with rfl | ⟨q, _, _, rfl⟩
      · exact d.blk u p hu hb
      · by_cases e : p = q
        · subst e; rw [give_self] at hb; cases hb
        · rw [give_other _ _ e] at hb; exact d.blk u p hu hb
    · rw [returnedTo_cons_ret]
      have : T t = false := hm
      rw [this]
      simp
  | store x v hp hu h1 h2 =>
    refine ⟨⟨n0, _, (d.inv.store hro v hp hu h1 h2).1, d.blk, d.ins, d.out⟩, fun hm => ⟨fun l hl => ?_, fun _ _ => rfl, fun _ _ => rfl, by simp [returnedTo, returned]⟩⟩
    have hm : ro.inArea S x = false := hm
    cases l with
    | regs => exact hl.elim
    | sc a c => rfl
    | prot pg => exact congrFun (appStore_prot _ _ _) pg
    | mem y =>
      obtain ⟨a, c, k1, k2, k3, k4⟩ := hl
      by_cases e : y = x
      · subst e
        rw [k4.area hro d.inv.inv k1 k2, k3] at hm; cases hm
      · show (s.σ.vm.appStore x v).mem y = s.σ.vm.mem y
        by_contra hne
        exact e (appStore_mem _ _ _ _ hne).1
  | errno t e hi =>
    refine ⟨?_, fun hm => ⟨fun _ _ => St.agree.rfl, fun u hu => if_neg (by rintro rfl; rw [Move.concerns, hu] at hm; cases hm), fun _ _ => rfl, by simp [returnedTo, returned]⟩⟩
    refine ⟨n0, w, d.inv.stay (t := t) (fun _ _ => rfl) rfl rfl (fun _ => rfl) (fun u hu => ⟨rfl, rfl, rfl, if_neg hu⟩) (fun _ => ?_) (fun c' P e => ?_), d.blk, d.ins, d.out⟩
    · show (if t = t then _ else _ : Tl).unsealed = false
      rw [if_pos rfl]; exact d.inv.tl t hi
    · exact absurd (hi.symm.trans e) (by simp)
  | fork t hi =>
    refine ⟨⟨n0, _, d.inv.fork hi, fun u p hu hb => ?_, (fun u c P hu hr => by cases hr), (fun u c P hu hr => by cases hr)⟩, fun hm => by cases hm⟩
    exfalso
    have hb : (w.G.blk p).lost = .thr (u + 1) := hb
    cases e : w.G.blk p <;> rw [e] at hb <;> simp [Holder.lost] at hb
  | other pg pr data hp =>
    obtain ⟨k1, k2⟩ := d.inv.other hro hp pr data
    refine ⟨⟨n0, _, k1, d.blk, d.ins, d.out⟩, fun hm => ⟨fun l hl => ?_, fun _ _ => rfl, fun _ _ => rfl, by simp [returnedTo, returned]⟩⟩
    have hno : w.G.own pg ≠ .slab := by
      rcases hp with hp | hp
      · rw [d.inv.others pg hp]; simp
      · intro e
        exact d.inv.inv.mapped pg (by rw [e]; simp) (by rw [d.inv.σ]; exact hp)
    cases l with
    | regs => exact hl.elim
    | sc a c => rfl
    | prot q =>
      obtain ⟨a, c, h1, h2, h3, h4⟩ := hl
      have ho := d.inv.inv.class_own hro h1 h2 h4
      rw [Nat.mul_div_cancel _ (by decide : 0 < PAGE)] at ho
      exact if_neg (by rintro rfl; exact hno ho)
    | mem x =>
      obtain ⟨a, c, h1, h2, h3, h4⟩ := hl
      have ho := d.inv.inv.class_own hro h1 h2 h4
      exact if_neg (by intro e; rw [e] at ho; exact hno ho)

/-! ### Two executions -/

theorem Alike73.refl (h : List CEv) (s : CSys) : Alike73 ro S T h s h s := ⟨fun _ _ => St.agree.rfl, fun _ _ => rfl, fun _ _ => rfl, rfl⟩

theorem Alike73.symm {h h' : List CEv} {s s' : CSys} (a : Alike73 ro S T h s h' s') : Alike73 ro S T h' s' h s :=
  ⟨fun l hl => (a.cell l hl).symm, fun t ht => (a.tl t ht).symm, fun t ht => (a.run t ht).symm, a.ret.symm⟩

theorem Alike73.trans {h h' h'' : List CEv} {s s' s'' : CSys} (a : Alike73 ro S T h s h' s') (b : Alike73 ro S T h' s' h'' s'') : Alike73 ro S T h s h'' s'' :=
  ⟨fun l hl => (b.cell l hl).trans (a.cell l hl), fun t ht => (b.tl t ht).trans (a.tl t ht), fun t ht => (b.run t ht).trans (a.run t ht), b.ret.trans a.ret⟩

/-- The next action of a thread in `T` has the same outcome in states that look the same to it. -/
theorem Side.next (hro : RoOk ro) {n0 : Nat → Nat} {h h' : List CEv} {s s' : CSys} {w : World} (d : Side ro calm S T rd n0 h s w) (a : Alike73 ro S T h s h' s') {t : Nat}
    (ht : T t = true) {c : Call} {β : Type} {l : Option Sect} {f : Choice → St → Tl → Res (St × Tl × β)} {k : β → Prog Ret} (hc : s.run t = some (c, .act (l := l) f k))
    {ch : Choice} (he : CEnv calm c ch) :
    Res.Rel (fun r r' => r'.2 = r.2 ∧ ∀ l, InS ro S l → r'.1.agree r.1 l) (f ch s.σ (s.tl t)) (f ch s'.σ (s.tl t)) := by
  rcases (d.ins t _ _ ht hc).1 with ⟨a', c', fr, rfl, h1, h2, h3⟩ | hr
  · obtain ⟨ch', hs, hch, _⟩ := d.inv.settle hc he
    have hl := (d.inv.wp hc).1 rfl
    have hσ : w.σ = s.σ := d.inv.σ
    have hfair := d.inv.env ▸ hs.fair
    have hn : ∀ ν, Noise ro (t + 1) (some (.cls a' c' fr)) w (fun c => ¬ (Sect.cls a' c' fr).uses ro w.σ c) ν := fun ν c hc => fun h => h hc
    have e := St.eq_patch (σ := w.σ) (ν := s'.σ) (N := fun c => ¬ (Sect.cls a' c' fr).uses ro w.σ c) fun x hx => by
      rw [hσ]; exact a.cell x (uses_inS hro h1 h2 h3 (not_not.mp hx))
    have key := hl.2 ch' hfair _ s'.σ (hn _)
    rw [← e, hch, hch, hσ] at key
    cases hr : f ch s.σ (s.tl t) with
    | ok r =>
      rw [hr] at key
      obtain ⟨r', e', hr'⟩ := key.ok_left
      rw [e']
      refine ⟨by rw [hr'], fun x hx => ?_⟩
      by_cases hu : (Sect.cls a' c' fr).uses ro s.σ x
      · rw [hr']
        exact St.patch_out (N := fun c => ¬ (Sect.cls a' c' fr).uses ro s.σ c) (not_not.mpr hu)
      · have k1 : r.1.agree w.σ x := hl.keeps hfair (hn _) (by rw [hch, hσ]; exact hr) (by rw [hσ]; exact hu)
        rw [hσ] at k1
        have k2 : r'.1.agree s'.σ x := by
          rw [hr']
          exact St.patch_in (N := fun c => ¬ (Sect.cls a' c' fr).uses ro s.σ c) hu
        exact k2.trans ((a.cell x hx).trans k1.symm)
    | fatal m => rw [hr] at key; cases e' : f ch s'.σ (s.tl t) <;> rw [e'] at key <;> first | exact key | exact key.elim
    | segv => rw [hr] at key; cases e' : f ch s'.σ (s.tl t) <;> rw [e'] at key <;> first | exact key | exact key.elim
    | ub m => rw [hr] at key; cases e' : f ch s'.σ (s.tl t) <;> rw [e'] at key <;> first | exact key | exact key.elim
    | hang => rw [hr] at key; cases e' : f ch s'.σ (s.tl t) <;> rw [e'] at key <;> first | exact key | exact key.elim
  · exact (hr _ _ a.cell _ _).1

/-- A move that concerns the threads in `T`, made in two states that look the same to them. -/
theorem Side.both (hro : RoOk ro) {n0 : Nat → Nat} {h1 h1' h2 h2' : List CEv} {s1 s1' s2 s2' : CSys} {w : World} (d : Side ro calm S T rd n0 h1 s1 w)
    (a : Alike73 ro S T h1 s1 h2 s2) {m : Move} (hm : m.concerns ro S T = true) (st1 : XStep ro ar calm h1 s1 m h1' s1') (st2 : XStep ro ar calm h2 s2 m h2' s2') :
    Alike73 ro S T h1' s1' h2' s2' := by
  have hupd : ∀ {α : Type 1} (f f' : Nat → α) (t : Nat) (x : α), (∀ u, T u = true → f' u = f u) → ∀ u, T u = true → upd f' t x u = upd f t x u := by
    intro α f f' t x hf u hu
    unfold upd
    split
    · rfl
    · exact hf u hu
  have hupd' : ∀ (f f' : Nat → Tl) (t : Nat) (x : Tl), (∀ u, T u = true → f' u = f u) → ∀ u, T u = true → upd f' t x u = upd f t x u := by
    intro f f' t x hf u hu
    unfold upd
    split
    · rfl
    · exact hf u hu
  cases st1 with
  | invoke t c b hi hok hl =>
    cases st2 with
    | invoke _ _ b' hi' hok' hl' => exact ⟨a.cell, a.tl, hupd _ _ _ _ a.run, by simpa [returnedTo, returned] using a.ret⟩
  | @step t c β l f k hc ch he σ' tl' b hf =>
    cases st2 with
    | @step _ c' β' l' f' k' hc' _ he' σ'' tl'' b' hf' =>
      have ht : T t = true := hm
      have e := (a.run t ht).symm.trans hc'
      rw [hc] at e
      cases e
      have key := d.next hro a ht hc he
      rw [a.tl t ht] at hf'
      rw [hf, hf'] at key
      obtain ⟨k1, k2⟩ := key
      cases k1
      exact ⟨k2, hupd' _ _ _ _ a.tl, hupd _ _ _ _ a.run, a.ret⟩
  | @ret t c x hc =>
    cases st2 with
    | @ret _ c' x' hc' =>
      have ht : T t = true := hm
      have e := (a.run t ht).symm.trans hc'
      rw [hc] at e
      cases e
      exact ⟨a.cell, a.tl, hupd _ _ _ _ a.run, by rw [returnedTo_cons_ret, returnedTo_cons_ret, a.ret]⟩
  | store x v hp hu k1 k2 =>
    cases st2 with
    | store _ _ hp' hu' k1' k2' =>
      refine ⟨fun l hl => ?_, a.tl, a.run, by simpa [returnedTo, returned] using a.ret⟩
      cases l with
      | regs => exact hl.elim
      | sc i j => exact a.cell (.sc i j) hl
      | prot pg =>
        show (s2.σ.vm.appStore x v).prot pg = (s1.σ.vm.appStore x v).prot pg
        rw [appStore_prot, appStore_prot]
        exact a.cell (.prot pg) hl
      | mem y =>
        have hy : s2.σ.vm.mem y = s1.σ.vm.mem y := a.cell (.mem y) hl
        obtain ⟨i, j, q1, q2, q3, q4⟩ := hl
        show (s2.σ.vm.appStore x v).mem y = (s1.σ.vm.appStore x v).mem y
        by_cases e : y = x
        · subst e
          have hpr : s2.σ.vm.prot (y / PAGE) = s1.σ.vm.prot (y / PAGE) :=
            a.cell (.prot (y / PAGE)) ⟨i, j, q1, q2, q3, classMem_page hro q1 q2 q4 (by rw [Nat.mul_div_cancel _ (by decide : 0 < PAGE)])⟩
          unfold Vm.appStore
          rw [hpr]
          split
          · simp
          · exact hy
        · unfold Vm.appStore
          split <;> split <;> simp [e, hy]
  | errno t e hi =>
    cases st2 with
    | errno _ _ hi' =>
      have ht : T t = true := hm
      refine ⟨a.cell, ?_, a.run, by simpa [returnedTo, returned] using a.ret⟩
      rw [a.tl t ht]
      exact hupd' _ _ _ _ a.tl
  | fork t hi =>
    cases st2 with
    | fork _ hi' =>
      refine ⟨a.cell, fun u hu => ?_, fun _ _ => rfl, by simpa [returnedTo, returned] using a.ret⟩
      show (if u = t then s2.tl t else _) = if u = t then s1.tl t else _
      split
      · subst u; exact a.tl t hu
      · rfl
  | other pg pr data hp => cases hm

theorem KeptApart.tail {A : List Move} {m : Move} (hA : KeptApart ro ar S T (m :: A)) : KeptApart ro ar S T A := fun t c hm => hA t c (List.mem_cons_of_mem _ hm)

theorem KeptApart.head {A : List Move} {m : Move} (hA : KeptApart ro ar S T (m :: A)) :
    ∀ t c, m = .inv t c → if T t then c.Inside ro S (ar t) else c.Outside ro S (ar t) := fun t c e => hA t c (e ▸ List.mem_cons_self ..)

/-- When no call is in progress, no thread holds a block. -/
theorem Side.start (hg : Good g ar) {h : List CEv} {s : CSys} (r : CReach g ro ar calm h s) (hq : ∀ t, s.run t = none) : ∃ n0 w, Side ro calm S T rd n0 h s w := by
  obtain ⟨w, n0, i⟩ := r.inv hg
  have i' := i.fork (hq 0)
  refine ⟨n0, w.lost, ⟨i.σ, i'.inv, i'.stat, i'.content, i'.env, i'.app, i'.sized, i.tl, i'.others, fun t c P e => ?_⟩, fun u p _ hb => ?_, fun t c P _ e => ?_, fun t c P _ e => ?_⟩
  · rw [hq t] at e; cases e
  · exfalso
    have hb : (w.G.blk p).lost = .thr (u + 1) := hb
    cases e : w.G.blk p <;> rw [e] at hb <;> simp [Holder.lost] at hb
  · rw [hq t] at e; cases e
  · rw [hq t] at e; cases e

theorem Exec.side (hg : Good g ar) (hro : RoOk ro) (eg : ro.g = g) {h0 : List CEv} {s0 : CSys} (r : CReach g ro ar calm h0 s0) (hq : ∀ t, s0.run t = none) {A : List Move}
    {h : List CEv} {s : CSys} (e : Exec ro ar calm h0 s0 A h s) (hA : KeptApart ro ar S T A) (hI : rd = false → ∀ t, .inv t .mallinfo ∉ A) : ∃ n0 w, Side ro calm S T rd n0 h s w := by
  induction e with
  | nil => exact Side.start hg r hq
  | cons e st ih =>
    obtain ⟨n0, w, d⟩ := ih hA.tail fun e t hm => hI e t (List.mem_cons_of_mem _ hm)
    exact (d.step hg hro eg st hA.head fun e t hm => hI e t (hm ▸ List.mem_cons_self ..)).1

theorem noRd {p : Prop} : true = false → p := fun h => by cases h

theorem Exec.alike (hg : Good g ar) (hro : RoOk ro) (eg : ro.g = g) {h0 : List CEv} {s0 : CSys} (r : CReach g ro ar calm h0 s0) (hq : ∀ t, s0.run t = none) {A B : List Move}
    {h1 h2 : List CEv} {s1 s2 : CSys} (e1 : Exec ro ar calm h0 s0 A h1 s1) (e2 : Exec ro ar calm h0 s0 B h2 s2)
    (hA1 : KeptApart ro ar S T A) (hA2 : KeptApart ro ar S T B) (hv : A.filter (Move.concerns ro S T) = B.filter (Move.concerns ro S T)) : Alike73 ro S T h1 s1 h2 s2 := by
  induction e1 generalizing B h2 s2 with
  | nil =>
    induction e2 with
    | nil => exact .refl _ _
    | @cons B h h' s s' m e st ih =>
      cases hm : m.concerns ro S T with
      | true => rw [List.filter_cons_of_pos hm] at hv; simp at hv
      | false =>
        rw [List.filter_cons_of_neg (by simp [hm])] at hv
        obtain ⟨n0, w, d⟩ := e.side hg hro eg r hq hA2.tail noRd
        exact (ih hA2.tail hv).trans ((d.step hg hro eg st hA2.head noRd).2 hm)
  | @cons A h h' s s' m e st ih =>
    obtain ⟨n0, w, d⟩ := e.side hg hro eg r hq hA1.tail noRd
    cases hm : m.concerns ro S T with
    | false =>
      rw [List.filter_cons_of_neg (by simp [hm])] at hv
      exact ((d.step hg hro eg st hA1.head noRd).2 hm).symm.trans (ih e2 hA1.tail hA2 hv)
    | true =>
      rw [List.filter_cons_of_pos hm] at hv
      induction e2 with
      | nil => simp at hv
      | @cons B h2 h2' s2 s2' m' e2 st2 ih2 =>
        cases hm' : m'.concerns ro S T with
        | false =>
          rw [List.filter_cons_of_neg (by simp [hm'])] at hv
          obtain ⟨n0', w', d'⟩ := e2.side hg hro eg r hq hA2.tail noRd
          exact (ih2 hA2.tail hv).trans ((d'.step hg hro eg st2 hA2.head noRd).2 hm')
        | true =>
          rw [List.filter_cons_of_pos hm'] at hv
          obtain ⟨em, hv'⟩ := List.cons.inj hv
          subst em
          exact d.both hro (ih e2 hA1.tail hA2.tail hv') hm st st2

/-! ### The property -/

/-- C73. Two executions begin in the same reachable state, in which no call is in progress. From there on, in both, the threads in `T` allocate, free, resize and inspect blocks of the size classes in `S` only, and the
other threads use no size class in `S` (`KeptApart`; `malloc_trim` and, for the threads in `T`, `mallinfo` look at all size classes and are not called). The moves that concern the threads in `T` (their calls, actions with the random numbers and the answers of the kernel,
returns and settings of errno; stores to blocks of `S`; forks) are the same in both. Then the calls of the threads in `T` returned the same in both, these threads
are at the same place in their calls, with the same errno, and the bytes of all slabs of `S` and the permissions of their pages are the same; whatever else the other threads did in either execution. -/
theorem c73_isolation (hg : Good g ar) {h0 : List CEv} {s0 : CSys} (r : CReach g ro ar calm h0 s0) (hq : ∀ t, s0.run t = none) {A B : List Move} {h1 h2 : List CEv}
    {s1 s2 : CSys} (e1 : Exec ro ar calm h0 s0 A h1 s1) (e2 : Exec ro ar calm h0 s0 B h2 s2)
    (hA1 : KeptApart ro ar S T A) (hA2 : KeptApart ro ar S T B) (hv : A.filter (Move.concerns ro S T) = B.filter (Move.concerns ro S T)) :
    returnedTo T h1 = returnedTo T h2 ∧ (∀ t, T t = true → s1.run t = s2.run t ∧ s1.tl t = s2.tl t) ∧
    ∀ a c, a < ro.g.nArena → c < nClasses ro.g → S a c = true → s1.σ.sc a c = s2.σ.sc a c ∧
      ∀ x, ro.regionStart a c ≤ x → x < ro.regionStart a c + ro.g.metaMax c * ro.g.slabSize c → s1.σ.vm.mem x = s2.σ.vm.mem x ∧ s1.σ.vm.prot (x / 4096) = s2.σ.vm.prot (x / 4096) := by
  obtain ⟨hro, eg⟩ := r.roOk hg
  have k := (e1.alike hg hro eg r hq e2 hA1 hA2 hv).symm
  refine ⟨k.ret, fun t ht => ⟨k.run t ht, k.tl t ht⟩, fun a c ha hc hs => ⟨k.cell (.sc a c) ⟨ha, hc, hs⟩, fun x h1 h2 => ?_⟩⟩
  have hx : ClassMem ro a c x := ⟨h1, h2⟩
  exact ⟨k.cell (.mem x) ⟨a, c, ha, hc, hs, hx⟩, k.cell (.prot (x / 4096)) ⟨a, c, ha, hc, hs,
    classMem_page hro ha hc hx (by rw [Nat.mul_div_cancel _ (by decide : 0 < PAGE)])⟩⟩

/-- C73, how calls end: in two such executions, the next action of a thread in `T`, with the same random numbers and answers of the kernel, has the same outcome: it continues in both,
with the same result, or ends the process in both, in the same way and with the same message. -/
theorem c73_outcome (hg : Good g ar) {h0 : List CEv} {s0 : CSys} (r : CReach g ro ar calm h0 s0) (hq : ∀ t, s0.run t = none) {A B : List Move} {h1 h2 : List CEv}
    {s1 s2 : CSys} (e1 : Exec ro ar calm h0 s0 A h1 s1) (e2 : Exec ro ar calm h0 s0 B h2 s2)
    (hA1 : KeptApart ro ar S T A) (hA2 : KeptApart ro ar S T B) (hv : A.filter (Move.concerns ro S T) = B.filter (Move.concerns ro S T)) {t : Nat} (ht : T t = true) {c : Call} {β : Type}
    {l : Option Sect} {f : Choice → St → Tl → Res (St × Tl × β)} {k : β → Prog Ret} (hc : s1.run t = some (c, .act (l := l) f k)) {ch : Choice} (he : CEnv calm c ch) :
    s2.run t = some (c, .act (l := l) f k) ∧ Res.Rel (fun r r' => r.2 = r'.2) (f ch s1.σ (s1.tl t)) (f ch s2.σ (s2.tl t)) := by
  obtain ⟨hro, eg⟩ := r.roOk hg
  have q := e1.alike hg hro eg r hq e2 hA1 hA2 hv
  obtain ⟨n0, w, d⟩ := e1.side hg hro eg r hq hA1 noRd
  refine ⟨(q.run t ht).trans hc, ?_⟩
  have key := d.next hro q ht hc he
  rw [q.tl t ht]
  cases e : f ch s1.σ (s1.tl t) <;> cases e' : f ch s2.σ (s1.tl t) <;> rw [e, e'] at key <;> first | exact key.1.symm | exact key

/-! ### Example -/

/-- The block that a call of `malloc`, `free` or `realloc` uses. -/
def exIsoBlk : Call → Nat
  | .free p | .realloc p _ => p
  | _ => 0

/-- One move of `malloc`, `free` or `realloc`, if it is possible. -/
def xrun (ro : Ro) (ar : Nat → Nat) (h : List CEv) (s : CSys) : Move → Option (List CEv × CSys)
  | .inv t c =>
      if (s.run t).isNone && c.okB && lendsB ro (hold h) s.σ (exIsoBlk c) c then
        some (.inv t c (exIsoBlk c) :: h, ⟨s.σ, s.tl, upd s.run t (some (c, c.prog ro (ar t))), upd s.start t s.σ⟩)
      else none
  | .go t ch => (s.act t ch).map fun s' => (h, s')
  | .ret t =>
      match s.run t with
      | some (c, .ret x) => some (.ret t c x :: h, ⟨s.σ, s.tl, upd s.run t none, s.start⟩)
      | _ => none
  | _ => none

/-- A list of moves, latest first. -/
def xruns (ro : Ro) (ar : Nat → Nat) (s0 : CSys) : List Move → Option (List CEv × CSys)
  | [] => some ([], s0)
  | m :: A => (xruns ro ar s0 A).bind fun x => xrun ro ar x.1 x.2 m

theorem xrun_step {h h' : List CEv} {s s' : CSys} {m : Move} (hm : ∀ t ch, m = .go t ch → ∀ c, CEnv calm c ch) (e : xrun ro ar h s m = some (h', s')) :
    XStep ro ar calm h s m h' s' := by
  cases m with
  | inv t c =>
    change (if _ then _ else _) = _ at e
    split at e
    · next hc =>
      simp only [Bool.and_eq_true, Option.isNone_iff_eq_none] at hc
      cases e
      exact .invoke t c _ hc.1.1 (Call.okB_ok hc.1.2) (lendsB_lends hc.2)
    · cases e
  | go t ch =>
    change (s.act t ch).map _ = _ at e
    unfold CSys.act at e
    cases hr : s.run t with
    | none => rw [hr] at e; cases e
    | some x =>
      obtain ⟨c, P⟩ := x
      rw [hr] at e
      cases P with
      | ret x => cases e
      | act f k =>
        dsimp only at e
        cases hf : f ch s.σ (s.tl t) with
        | ok y =>
          obtain ⟨σ', tl', b⟩ := y
          rw [hf] at e
          cases e
          exact .step t hr (hm t ch rfl c) hf
        | _ => rw [hf] at e; cases e
  | ret t =>
    simp only [xrun] at e
    split at e
    · next hr => cases e; exact .ret t hr
    · cases e
  | _ => cases e

theorem xruns_exec {s0 : CSys} {A : List Move} (hm : ∀ t ch, .go t ch ∈ A → ∀ c, CEnv calm c ch) {h : List CEv} {s : CSys} (e : xruns ro ar s0 A = some (h, s)) :
    Exec ro ar calm [] s0 A h s := by
  induction A generalizing h s with
  | nil => cases e; exact .nil
  | cons m A ih =>
    obtain ⟨⟨h1, s1⟩, k1, k2⟩ := Option.bind_eq_some_iff.mp e
    exact .cons (ih (fun t ch hi => hm t ch (List.mem_cons_of_mem _ hi)) k1) (xrun_step (fun t ch he => hm t ch (he ▸ List.mem_cons_self ..)) k2)

/-- In the example: the size classes of arena 0, and thread 0. -/
def exIsoS (a _ : Nat) : Bool := a == 0
def exIsoT (t : Nat) : Bool := t == 0

/-- Thread 0 allocates, frees, allocates again and resizes (latest first), with the moves `o` of other threads in between. -/
def exIso (o : List Move) : List Move :=
  let a : List Move := [.inv 0 (.malloc 100), .go 0 (exAt 0), .go 0 (exAt 0), .go 0 (exAt 0), .ret 0, .inv 0 (.free exA), .go 0 (exAt 0)]
  let b : List Move := [.go 0 (exAt 0), .go 0 (exAt 0), .ret 0, .inv 0 (.malloc 100), .go 0 (exAt 0), .go 0 (exAt 0), .go 0 (exAt 0), .ret 0,
    .inv 0 (.realloc (exA + 112) 30), .go 0 (exAt 0), .go 0 (exAt 0), .go 0 (exAt 0), .go 0 (exAt 0), .go 0 (exAt 0), .ret 0]
  (a ++ o ++ b).reverse

/-- Thread 1, in arena 1, allocates a block of the same size class, and is about to allocate a large block. -/
def exIsoOther : List Move :=
  [.inv 1 (.malloc 100), .go 1 (exAt 0), .go 1 (exAt 0), .go 1 (exAt 0), .ret 1, .inv 1 (.malloc 200000), .go 1 (exAt 0), .go 1 (exAt 0), .go 1 (exAt exMapAt)]

def exIsoRun (o : List Move) : Option (List CEv × CSys) :=
  xruns (exRo false true) (fun t => t % 4) ⟨exSt, fun _ => ⟨0, false⟩, fun _ => none, fun _ => exSt⟩ (exIso o)

/-- The pointer that a call returned. -/
def exIsoPtr : Ret → Nat
  | .ptr p => p
  | _ => 0

/-- `KeptApart`, for calls of `malloc`, `free` and `realloc`. -/
def apartB (ro : Ro) (ar : Nat → Nat) (S : Nat → Nat → Bool) (T : Nat → Bool) (A : List Move) : Bool :=
  A.all fun
    | .inv t (.malloc n) =>
        let i := decide (adjustSizeForCanary ro.g n ≤ ro.g.maxSlab) && S (ar t) (getSizeInfo (adjustSizeForCanary ro.g n)).cls
        if T t then i else !i
    | .inv t (.free p) => if T t then p == 0 || ro.inArea S p else !ro.inArea S p
    | .inv t (.realloc p n) =>
        let i := decide (adjustSizeForCanary ro.g n ≤ ro.g.maxSlab) && S (ar t) (getSizeInfo (adjustSizeForCanary ro.g n)).cls
        if T t then (p == 0 || ro.inArea S p) && i else !ro.inArea S p && !i
    | .inv .. => false
    | _ => true

theorem apartB_apart {A : List Move} (e : apartB ro ar S T A = true) : KeptApart ro ar S T A := by
  intro t c hm
  have k := List.all_eq_true.mp e _ hm
  cases c <;> first | cases k | skip
  all_goals
    dsimp only at k
    cases hT : T t <;> simp_all [Call.Inside, Call.Outside, Ro.allocIn]
  · exact fun hle => k.resolve_left (by omega)
  · exact fun hle => k.2.resolve_left (by omega)

/-- Two executions as in `c73_isolation`: in one, thread 1 does nothing; in the other, it allocates while thread 0 is in `free`. -/
example : ∃ h1 s1 h2 s2, Exec (exRo false true) (fun t => t % 4) true [] ⟨exSt, fun _ => ⟨0, false⟩, fun _ => none, fun _ => exSt⟩ (exIso []) h1 s1 ∧
    Exec (exRo false true) (fun t => t % 4) true [] ⟨exSt, fun _ => ⟨0, false⟩, fun _ => none, fun _ => exSt⟩ (exIso exIsoOther) h2 s2 ∧
    CReach (exCfg false true) (exRo false true) (fun t => t % 4) true [] ⟨exSt, fun _ => ⟨0, false⟩, fun _ => none, fun _ => exSt⟩ ∧
    KeptApart (exRo false true) (fun t => t % 4) exIsoS exIsoT (exIso []) ∧ KeptApart (exRo false true) (fun t => t % 4) exIsoS exIsoT (exIso exIsoOther) ∧
    (exIso []).filter (Move.concerns (exRo false true) exIsoS exIsoT) = (exIso exIsoOther).filter (Move.concerns (exRo false true) exIsoS exIsoT) ∧
    (returnedTo exIsoT h2).map (fun x => exIsoPtr x.2.2) = [exA, 0, exA + 112, 0x13000001000] ∧ (returned h2).length = 5 ∧ (s2.run 1).isSome = true := by
  have k : (match exIsoRun [], exIsoRun exIsoOther with
    | some _, some (h2, s2) => apartB (exRo false true) (fun t => t % 4) exIsoS exIsoT (exIso []) && apartB (exRo false true) (fun t => t % 4) exIsoS exIsoT (exIso exIsoOther) &&
        decide ((returnedTo exIsoT h2).map (fun x => exIsoPtr x.2.2) = [exA, 0, exA + 112, 0x13000001000]) && decide ((returned h2).length = 5) && (s2.run 1).isSome
    | _, _ => false) = true := by decide +kernel
  have hm : ∀ o, (∀ t ch, .go t ch ∈ o → ∃ a, ch = exAt a) → ∀ t ch, .go t ch ∈ exIso o → ∀ c, CEnv true c ch := by
    intro o ho t ch hi c
    have : ∃ a, ch = exAt a := by
      simp only [exIso, List.mem_reverse, List.mem_append, List.mem_cons, List.not_mem_nil, or_false, reduceCtorEq, false_or, Move.go.injEq] at hi
      rcases hi with (hi | hi) | hi
      · rcases hi with hi | hi | hi | hi <;> exact ⟨_, hi.2⟩
      · exact ho t ch hi
      · rcases hi with hi | hi | hi | hi | hi | hi | hi | hi | hi | hi <;> exact ⟨_, hi.2⟩
    obtain ⟨a, rfl⟩ := this
    exact exAt_cenv true a c
  have ho : ∀ t ch, .go t ch ∈ exIsoOther → ∃ a, ch = exAt a := by
    intro t ch hi
    simp only [exIsoOther, List.mem_cons, List.not_mem_nil, or_false, reduceCtorEq, false_or, Move.go.injEq] at hi
    rcases hi with hi | hi | hi | hi | hi | hi <;> exact ⟨_, hi.2⟩
  cases e1 : exIsoRun [] with
  | none => rw [e1] at k; cases k
  | some x1 =>
    cases e2 : exIsoRun exIsoOther with
    | none => rw [e1, e2] at k; cases k
    | some x2 =>
      obtain ⟨h1, s1⟩ := x1
      obtain ⟨h2, s2⟩ := x2
      rw [e1, e2] at k
      simp only [Bool.and_eq_true, decide_eq_true_eq] at k
      exact ⟨h1, s1, h2, s2, xruns_exec (hm [] (fun t ch hi => by cases hi)) e1, xruns_exec (hm exIsoOther ho) e2, .init (exInit false true) (fun _ => rfl), apartB_apart k.1.1.1.1, apartB_apart k.1.1.1.2, rfl,
        k.1.1.2, k.1.2, k.2⟩

end HM
