import Verif.SysIo
import Mathlib.Data.List.Infix
/-
C45: the seed is complete, and so is the error message, whatever the outcomes of the system calls are.
-/
namespace HM

/-- All bytes delivered by a sequence of system calls. -/
def delivered : List SeedRead → List (BitVec 8)
  | [] => []
  | .bytes l :: gs => l ++ delivered gs
  | _ :: gs => delivered gs

theorem put_put (m : Mem) (buf : Nat) (l l' : List (BitVec 8)) : (m.put buf l).put (buf + l.length) l' = m.put buf (l ++ l') := by
  funext a
  simp only [Mem.put, List.length_append, List.getD_eq_getElem?_getD, List.getElem?_append]
  by_cases h1 : buf ≤ a ∧ a < buf + l.length
  · rw [if_neg (by omega), if_pos h1, if_pos (by omega), if_pos (by omega)]
  · by_cases h2 : buf + l.length ≤ a ∧ a < buf + l.length + l'.length
    · rw [if_pos h2, if_pos (by omega), if_neg (by omega), show a - (buf + l.length) = a - buf - l.length by omega]
    · rw [if_neg h2, if_neg h1, if_neg (by omega)]

/-- C45. When `get_random_seed` returns, it has filled exactly the `size` bytes at `buf`, with the bytes that the kernel has
delivered, one after the other, however many of its calls were interrupted or delivered only a part. -/
theorem c45_seed {m m' : Mem} {buf size : Nat} {gs gs' : List SeedRead} (h : getRandomSeed m buf size gs = some (.ok (m', gs'))) :
    ∃ used, gs = used ++ gs' ∧ size ≤ (delivered used).length ∧
      ∀ a, m' a = if buf ≤ a ∧ a < buf + size then (delivered used).getD (a - buf) 0 else m a := by
  have key : ∃ used, gs = used ++ gs' ∧ size ≤ (delivered used).length ∧ m' = m.put buf ((delivered used).take size) := by
    induction gs generalizing m buf size with
    | nil =>
      unfold getRandomSeed at h
      by_cases k : size = 0
      · rw [if_pos k] at h; cases h
        refine ⟨[], rfl, by omega, ?_⟩
        funext a
        simp only [Mem.put, k, List.take_zero, List.length_nil]
        rw [if_neg (by omega)]
      · rw [if_neg k] at h; cases h
    | cons g gs ih =>
      unfold getRandomSeed at h
      by_cases k : size = 0
      · rw [if_pos k] at h; cases h
        refine ⟨[], rfl, by omega, ?_⟩
        funext a
        simp only [Mem.put, k, List.take_zero, List.length_nil]
        rw [if_neg (by omega)]
      · rw [if_neg k] at h
        cases g with
        | eintr =>
          obtain ⟨u, h1, h2, h3⟩ := ih h
          exact ⟨.eintr :: u, by rw [h1]; rfl, h2, h3⟩
        | error => cases h
        | bytes l =>
          simp only at h
          by_cases k2 : (l.take size).length = 0
          · rw [if_pos k2] at h; cases h
          · rw [if_neg k2] at h
            obtain ⟨u, h1, h2, h3⟩ := ih h
            refine ⟨.bytes l :: u, by rw [h1]; rfl, ?_, ?_⟩
            · simp only [delivered, List.length_append, List.length_take] at h2 ⊢
              omega
            · rw [h3, put_put]
              congr 1
              simp only [delivered, List.take_append, List.length_take]
              by_cases hl : l.length ≤ size
              · rw [Nat.min_eq_right hl]
              · rw [Nat.min_eq_left (by omega), show size - size = 0 by omega, show size - l.length = 0 by omega]
  obtain ⟨u, h1, h2, h3⟩ := key
  refine ⟨u, h1, h2, fun a => ?_⟩
  rw [h3]
  simp only [Mem.put, List.length_take, Nat.min_eq_left h2]
  by_cases k : buf ≤ a ∧ a < buf + size
  · rw [if_pos k, if_pos k]
    simp only [List.getD_eq_getElem?_getD, List.getElem?_take]
    rw [if_pos (by omega)]
  · rw [if_neg k, if_neg k]

/-- Whether an outcome makes `get_random_seed` give up. -/
def SeedRead.bad : SeedRead → Prop
  | .bytes l => l = []
  | .eintr => False
  | .error => True

/-- C45. `get_random_seed` aborts only if the kernel reports an error other than EINTR or delivers nothing, and otherwise
returns after finitely many calls: at the latest when it has seen `size` calls that were not interrupted. -/
theorem c45_seed_returns {m : Mem} {buf size : Nat} {gs : List SeedRead} (hb : ∀ g ∈ gs, ¬ g.bad)
    (hn : size ≤ (gs.filter fun g => match g with | .eintr => false | _ => true).length) :
    ∃ m' gs', getRandomSeed m buf size gs = some (.ok (m', gs')) := by
  induction gs generalizing m buf size with
  | nil =>
    have : size = 0 := by simpa using hn
    exact ⟨m, [], by simp [getRandomSeed, this]⟩
  | cons g gs ih =>
    unfold getRandomSeed
    by_cases k : size = 0
    · exact ⟨m, g :: gs, by rw [if_pos k]⟩
    · rw [if_neg k]
      have hb' : ∀ g ∈ gs, ¬ g.bad := fun x hx => hb x (by simp [hx])
      cases g with
      | eintr => exact ih hb' (by simpa using hn)
      | error => exact absurd trivial (hb .error (by simp))
      | bytes l =>
        have hl : l ≠ [] := fun e => hb (.bytes l) (by simp) e
        have hlen : 0 < l.length := List.length_pos_iff.mpr hl
        have k2 : ¬ (l.take size).length = 0 := by rw [List.length_take]; omega
        simp only [if_neg k2]
        simp only [List.filter_cons, if_true, List.length_cons] at hn
        exact ih hb' (by rw [List.length_take]; omega)

/-- The hypotheses are met: an interrupted call, a part, the rest. -/
example (m : Mem) : ∃ m' gs', getRandomSeed m 1000 5 [.eintr, .bytes [1, 2], .eintr, .bytes [3], .bytes [4, 5, 6], .bytes [7], .bytes [8]] = some (.ok (m', gs')) :=
  c45_seed_returns (by simp [SeedRead.bad]) (by decide)

/-- Whether a call of `write` failed. -/
def Wrote.failed : Wrote → Bool
  | .error => true
  | _ => false

theorem writeFull_spec (buf : List (BitVec 8)) (ws : List Wrote) :
    (∃ rest, buf = (writeFull buf ws).1 ++ rest) ∧
    ∀ r ws', (writeFull buf ws).2 = some (r, ws') → (r = 0 ∧ (writeFull buf ws).1 = buf ∨ r = -1 ∧ ∃ w ∈ ws, w.failed = true) ∧ ∀ w ∈ ws', w ∈ ws := by
  induction ws generalizing buf with
  | nil => exact ⟨⟨buf, rfl⟩, fun _ _ h => by cases h⟩
  | cons w ws ih =>
    cases w with
    | eintr =>
      unfold writeFull
      by_cases k : buf.length ≠ 0
      · rw [if_pos k]
        obtain ⟨h1, h2⟩ := ih buf
        refine ⟨h1, fun r ws' e => ?_⟩
        obtain ⟨h3, h4⟩ := h2 r ws' e
        exact ⟨h3.imp id fun ⟨a, w, b, c⟩ => ⟨a, w, by simp [b], c⟩, fun w hw => by simp [h4 w hw]⟩
      · rw [if_neg k]
        have hb : buf = [] := List.length_eq_zero_iff.mp (by omega)
        subst hb
        refine ⟨⟨[], rfl⟩, fun r ws' e => ?_⟩
        cases e
        exact ⟨Or.inl ⟨rfl, rfl⟩, fun w hw => by simp [hw]⟩
    | error =>
      unfold writeFull
      refine ⟨⟨buf, rfl⟩, fun r ws' e => ?_⟩
      cases e
      exact ⟨Or.inr ⟨rfl, .error, by simp, rfl⟩, fun w hw => by simp [hw]⟩
    | n k =>
      unfold writeFull
      simp only
      by_cases k1 : (buf.drop (min k buf.length)).length ≠ 0
      · rw [if_pos k1]
        obtain ⟨⟨rest, h1⟩, h2⟩ := ih (buf.drop (min k buf.length))
        refine ⟨⟨rest, ?_⟩, fun r ws' e => ?_⟩
        · rw [List.append_assoc, ← h1, List.take_append_drop]
        · obtain ⟨h3, h4⟩ := h2 r ws' e
          refine ⟨h3.imp (fun ⟨a, b⟩ => ⟨a, ?_⟩) fun ⟨a, w, b, c⟩ => ⟨a, w, by simp [b], c⟩, fun w hw => by simp [h4 w hw]⟩
          rw [b, List.take_append_drop]
      · rw [if_neg k1]
        have hd : buf.drop (min k buf.length) = [] := List.length_eq_zero_iff.mp (by omega)
        have ht : buf.take (min k buf.length) = buf := by
          have := List.take_append_drop (min k buf.length) buf
          rw [hd, List.append_nil] at this; exact this
        refine ⟨⟨[], by rw [ht, List.append_nil]⟩, fun r ws' e => ?_⟩
        cases e
        exact ⟨Or.inl ⟨rfl, ht⟩, fun w hw => by simp [hw]⟩

/-- The error message for the reason `s`. -/
def message (s : List (BitVec 8)) : List (BitVec 8) := "fatal allocator error: ".toUTF8.toList.map (fun b => b.toBitVec) ++ s ++ [10]

theorem fatalPrefix_eq : "fatal allocator error: ".toUTF8.toList.map (fun b => b.toBitVec) = fatalPrefix := by decide +kernel

/-- C45. What `fatal_error` writes is always a beginning of the message, and if it aborts although no call of `write` failed
with an error other than EINTR, it has written the complete message, however many calls were interrupted or wrote only
a part. -/
theorem c45_message (s : List (BitVec 8)) (ws : List Wrote) :
    (∃ rest, message s = (fatalError s ws).1 ++ rest) ∧
    ((∀ w ∈ ws, w.failed = false) → (fatalError s ws).2 = true → (fatalError s ws).1 = message s) := by
  unfold message
  rw [fatalPrefix_eq]
  unfold fatalError
  obtain ⟨⟨r1, a1⟩, a2⟩ := writeFull_spec fatalPrefix ws
  rcases e1 : writeFull fatalPrefix ws with ⟨o1, x1⟩
  rw [e1] at a1 a2
  cases x1 with
  | none => exact ⟨⟨r1 ++ s ++ [10], by simp only; rw [a1]; simp⟩, fun _ h => by cases h⟩
  | some y =>
    obtain ⟨v1, ws1⟩ := y
    obtain ⟨b1, b2⟩ := a2 v1 ws1 rfl
    simp only
    by_cases k1 : v1 ≠ -1
    · rw [if_pos k1]
      have c1 : o1 = fatalPrefix := b1.elim (fun h => h.2) fun h => absurd h.1 k1
      obtain ⟨⟨r2, a3⟩, a4⟩ := writeFull_spec s ws1
      rcases e2 : writeFull s ws1 with ⟨o2, x2⟩
      rw [e2] at a3 a4
      cases x2 with
      | none => exact ⟨⟨r2 ++ [10], by simp only; rw [a3, c1]; simp⟩, fun _ h => by cases h⟩
      | some y =>
        obtain ⟨v2, ws2⟩ := y
        obtain ⟨b3, b4⟩ := a4 v2 ws2 rfl
        simp only
        by_cases k2 : v2 ≠ -1
        · rw [if_pos k2]
          have c2 : o2 = s := b3.elim (fun h => h.2) fun h => absurd h.1 k2
          obtain ⟨⟨r3, a5⟩, a6⟩ := writeFull_spec [10] ws2
          rcases e3 : writeFull [10] ws2 with ⟨o3, x3⟩
          rw [e3] at a5 a6
          simp only
          refine ⟨⟨r3, ?_⟩, fun hw h => ?_⟩
          · have a5 : [10] = o3 ++ r3 := a5
            simp only [c1, c2, List.append_assoc, ← a5]
          cases x3 with
          | none => cases h
          | some y =>
            obtain ⟨b5, _⟩ := a6 y.1 y.2 rfl
            rcases b5 with ⟨_, h5⟩ | ⟨_, w, h6, h7⟩
            · have h5 : o3 = [10] := h5
              rw [c1, c2, h5]
            · rw [hw w (b2 w (b4 w h6))] at h7; cases h7
        · rw [if_neg k2]
          refine ⟨⟨r2 ++ [10], by simp only; rw [c1, a3]; simp⟩, fun hw _ => ?_⟩
          rcases b3 with ⟨h5, _⟩ | ⟨_, w, h6, h7⟩
          · rw [h5] at k2; exact absurd (by decide) k2
          · rw [hw w (b2 w h6)] at h7; cases h7
    · rw [if_neg k1]
      refine ⟨⟨r1 ++ s ++ [10], by simp only; rw [a1]; simp⟩, fun hw _ => ?_⟩
      rcases b1 with ⟨h5, _⟩ | ⟨_, w, h6, h7⟩
      · rw [h5] at k1; exact absurd (by decide) k1
      · rw [hw w h6] at h7; cases h7

/-- The message "x" with an interrupted call and parts. -/
example : fatalError [120] [.n 3, .eintr, .n 0, .n 20, .n 1, .eintr, .n 1] = (message [120], true) := by decide +kernel

/-- Number of calls of `write` that wrote something. -/
def progress (ws : List Wrote) : Nat := (ws.filter fun w => match w with | .n k => decide (0 < k) | _ => false).length

theorem writeFull_ends (buf : List (BitVec 8)) (ws : List Wrote) (hw : ∀ w ∈ ws, w.failed = false) (hn : max 1 buf.length ≤ progress ws) :
    ∃ ws', (writeFull buf ws).2 = some (0, ws') ∧ progress ws ≤ progress ws' + max 1 buf.length ∧ ∀ w ∈ ws', w ∈ ws := by
  induction ws generalizing buf with
  | nil => simp only [progress, List.filter_nil, List.length_nil] at hn; omega
  | cons w ws ih =>
    have hw' : ∀ w ∈ ws, w.failed = false := fun w h => hw w (by simp [h])
    cases w with
    | eintr =>
      have hp : progress (.eintr :: ws) = progress ws := rfl
      rw [hp] at hn ⊢
      unfold writeFull
      by_cases k : buf.length ≠ 0
      · rw [if_pos k]
        obtain ⟨ws', h1, h2, h3⟩ := ih buf hw' hn
        exact ⟨ws', h1, h2, fun w h => by simp [h3 w h]⟩
      · rw [if_neg k]; exact ⟨ws, rfl, by omega, fun w h => by simp [h]⟩
    | error => exact absurd (hw .error (by simp)) (by decide)
    | n k =>
      have hp : progress (.n k :: ws) = progress ws + if 0 < k then 1 else 0 := by
        unfold progress
        by_cases k0 : 0 < k
        · simp [k0]
        · simp [k0]
      rw [hp] at hn ⊢
      unfold writeFull
      simp only
      by_cases k1 : (buf.drop (min k buf.length)).length ≠ 0
      · rw [if_pos k1]
        rw [List.length_drop] at k1
        by_cases k0 : 0 < k
        · rw [if_pos k0] at hn ⊢
          obtain ⟨ws', h1, h2, h3⟩ := ih (buf.drop (min k buf.length)) hw' (by rw [List.length_drop]; omega)
          exact ⟨ws', h1, by rw [List.length_drop] at h2; omega, fun w h => by simp [h3 w h]⟩
        · rw [if_neg k0] at hn ⊢
          have : k = 0 := by omega
          subst this
          rw [Nat.zero_min, List.drop_zero]
          obtain ⟨ws', h1, h2, h3⟩ := ih buf hw' hn
          exact ⟨ws', h1, h2, fun w h => by simp [h3 w h]⟩
      · rw [if_neg k1]
        refine ⟨ws, rfl, ?_, fun w h => by simp [h]⟩
        by_cases k0 : 0 < k
        · rw [if_pos k0]; omega
        · rw [if_neg k0]; omega

/-- C45. If no call of `write` fails, `fatal_error` aborts after finitely many calls: at the latest when as many calls as the
message has bytes (plus one, if the reason is empty) have written something. -/
theorem c45_message_ends (s : List (BitVec 8)) (ws : List Wrote) (hw : ∀ w ∈ ws, w.failed = false) (hn : (message s).length + 1 ≤ progress ws) :
    fatalError s ws = (message s, true) := by
  have hm := (c45_message s ws).2 hw
  suffices h : (fatalError s ws).2 = true from Prod.ext (hm h) h
  have hl : (message s).length = 23 + s.length + 1 := by
    unfold message; rw [fatalPrefix_eq]; simp [fatalPrefix]; omega
  obtain ⟨ws1, a1, a2, a3⟩ := writeFull_ends fatalPrefix ws hw (by simp only [fatalPrefix, List.length_cons, List.length_nil]; omega)
  simp only [fatalPrefix, List.length_cons, List.length_nil] at a2
  obtain ⟨ws2, b1, b2, b3⟩ := writeFull_ends s ws1 (fun w h => hw w (a3 w h)) (by omega)
  obtain ⟨ws3, c1, _, _⟩ := writeFull_ends [10] ws2 (fun w h => hw w (a3 w (b3 w h))) (by simp only [List.length_cons, List.length_nil]; omega)
  unfold fatalError
  rcases e1 : writeFull fatalPrefix ws with ⟨o1, x1⟩
  rw [e1] at a1
  rcases e2 : writeFull s ws1 with ⟨o2, x2⟩
  rw [e2] at b1
  rcases e3 : writeFull [10] ws2 with ⟨o3, x3⟩
  rw [e3] at c1
  simp only at a1 b1 c1
  subst a1 b1 c1
  simp only [e2, ne_eq, show ¬ ((0 : Int) = -1) by decide, not_false_eq_true, if_true, e3, Option.isSome_some]

theorem writeFull_some (buf : List (BitVec 8)) (ws : List Wrote) :
    (∃ r ws', (writeFull buf ws).2 = some (r, ws') ∧ (r = -1 ∨ (r = 0 ∧ ∀ l, (∃ w ∈ l ++ ws, w.failed = true) → ∃ w ∈ l ++ ws', w.failed = true))) ∨
      ∀ w ∈ ws, w.failed = false := by
  induction ws generalizing buf with
  | nil => exact Or.inr (by simp)
  | cons w ws ih =>
    cases w with
    | error => exact Or.inl ⟨-1, ws, rfl, Or.inl rfl⟩
    | eintr =>
      unfold writeFull
      split
      · rcases ih buf with ⟨r, ws', h1, h2⟩ | h
        · refine Or.inl ⟨r, ws', h1, h2.imp_right fun h3 => ⟨h3.1, fun l hl => h3.2 l ?_⟩⟩
          obtain ⟨w, hw, he⟩ := hl
          refine ⟨w, ?_, he⟩
          simp only [List.mem_append, List.mem_cons] at hw ⊢
          rcases hw with hw | rfl | hw
          · exact Or.inl hw
          · cases he
          · exact Or.inr hw
        · exact Or.inr fun w hw => by
            rcases List.mem_cons.mp hw with rfl | hw
            · rfl
            · exact h w hw
      · refine Or.inl ⟨0, ws, rfl, Or.inr ⟨rfl, fun l hl => ?_⟩⟩
        obtain ⟨w, hw, he⟩ := hl
        refine ⟨w, ?_, he⟩
        simp only [List.mem_append, List.mem_cons] at hw ⊢
        rcases hw with hw | rfl | hw
        · exact Or.inl hw
        · cases he
        · exact Or.inr hw
    | n k =>
      have drop : ∀ l : List Wrote, (∃ w ∈ l ++ .n k :: ws, w.failed = true) → ∃ w ∈ l ++ ws, w.failed = true := by
        rintro l ⟨w, hw, he⟩
        refine ⟨w, ?_, he⟩
        simp only [List.mem_append, List.mem_cons] at hw ⊢
        rcases hw with hw | rfl | hw
        · exact Or.inl hw
        · cases he
        · exact Or.inr hw
      unfold writeFull
      simp only
      split
      · rcases ih (buf.drop (min k buf.length)) with ⟨r, ws', h1, h2⟩ | h
        · exact Or.inl ⟨r, ws', h1, h2.imp_right fun h3 => ⟨h3.1, fun l hl => h3.2 l (drop l hl)⟩⟩
        · exact Or.inr fun w hw => by
            rcases List.mem_cons.mp hw with rfl | hw
            · rfl
            · exact h w hw
      · exact Or.inl ⟨0, ws, rfl, Or.inr ⟨rfl, fun l hl => drop l hl⟩⟩

/-- C45. A failing `write` does not keep `fatal_error` from aborting: once a call has failed, the process has aborted. -/
theorem c45_aborts (s : List (BitVec 8)) (ws : List Wrote) (hw : ∃ w ∈ ws, w.failed = true) : (fatalError s ws).2 = true := by
  have no : ∀ l : List Wrote, (∃ w ∈ l, w.failed = true) → ¬ ∀ w ∈ l, w.failed = false := fun l ⟨w, h1, h2⟩ h3 => by rw [h3 w h1] at h2; cases h2
  unfold fatalError
  rcases e1 : writeFull fatalPrefix ws with ⟨o1, x1⟩
  have a := (writeFull_some fatalPrefix ws).resolve_right (no ws hw)
  rw [e1] at a
  obtain ⟨r1, ws1, a1, a2⟩ := a
  simp only at a1
  subst a1
  rcases a2 with rfl | ⟨rfl, a2⟩
  · rfl
  have hw1 := a2 [] (by simpa using hw)
  simp only [List.nil_append] at hw1
  rcases e2 : writeFull s ws1 with ⟨o2, x2⟩
  have b := (writeFull_some s ws1).resolve_right (no ws1 hw1)
  rw [e2] at b
  obtain ⟨r2, ws2, b1, b2⟩ := b
  simp only at b1
  subst b1
  rcases b2 with rfl | ⟨rfl, b2⟩
  · simp only [e2, ne_eq, show ¬ ((0 : Int) = -1) by decide, not_false_eq_true, if_true]; rfl
  have hw2 := b2 [] (by simpa using hw1)
  simp only [List.nil_append] at hw2
  rcases e3 : writeFull [10] ws2 with ⟨o3, x3⟩
  have d := (writeFull_some [10] ws2).resolve_right (no ws2 hw2)
  rw [e3] at d
  obtain ⟨r3, ws3, d1, _⟩ := d
  simp only at d1
  subst d1
  simp only [e2, ne_eq, show ¬ ((0 : Int) = -1) by decide, not_false_eq_true, if_true, e3, Option.isSome_some]

example : fatalError [120] [.n 3, .eintr, .error] = ([102, 97, 116], true) := by decide +kernel

/-- What the code does not guard against: as long as `write` returns 0, `fatal_error` tries again. -/
theorem c45_write_zero (s : List (BitVec 8)) (n : Nat) : fatalError s (List.replicate n (.n 0)) = ([], false) := by
  have h : writeFull fatalPrefix (List.replicate n (.n 0)) = ([], none) := by
    induction n with
    | zero => rfl
    | succ n ih =>
      rw [List.replicate_succ]
      unfold writeFull
      simp only [Nat.zero_min, List.drop_zero, List.take_zero, ih]
      rfl
  unfold fatalError
  rw [h]

end HM
