import Verif.RandomProof
/-
C31: the random generator. `ChaCha8.ofSeed seed n` is byte `n` of the keystream that ChaCha8 specifies for the 32 byte key
and 8 byte nonce in `seed` (ChaChaSpec.lean). `os n` is the seed number `n` that the operating system delivers. `Rng.reqs` makes
any sequence of requests (`get_random_bytes`, `get_random_u16`, `get_random_u64`) and collects all the bytes they deliver.
-/
namespace HM
open ChaCha8

/-- C31. `chacha_keystream_bytes` delivers the next bytes of the ChaCha8 keystream, starting at a block boundary, and
leaves the context at the next block boundary. -/
theorem c31_chacha (x : Words) (seed : List (BitVec 8)) (m n : Nat) :
    (keystreamBytes (ivSetup (keySetup x seed) (seed.drop 32)) m).2 = (List.range m).map (ofSeed seed) ∧
    (keystreamBytes (keystreamBytes (ivSetup (keySetup x seed) (seed.drop 32)) m).1 n).2 =
      (List.range' (64 * ((m + 63) / 64)) n).map (ofSeed seed) := by
  rw [setup_spec, keystreamBytes_spec, keystreamBytes_spec]
  exact ⟨by simp [List.range_eq_range'], by simp⟩

/-- The example: the first bytes of the ChaCha8 keystream for the zero key and nonce (published test vector). -/
example : (keystreamBytes (ivSetup (keySetup ⟨0, 0, 0, 0, 0, 0, 0, 0, 0, 0, 0, 0, 0, 0, 0, 0⟩ (List.replicate 40 0)) (List.replicate 8 0)) 32).2 =
    [0x3e, 0x00, 0xef, 0x2f, 0x89, 0x5f, 0x40, 0xd6, 0x7f, 0x5b, 0xb8, 0xe8, 0x1f, 0x09, 0xa5, 0xa1,
     0x2c, 0x84, 0x0e, 0xc3, 0xce, 0x9a, 0x7f, 0x3b, 0x18, 0x1b, 0xe1, 0x88, 0xef, 0x71, 0x1a, 0x1e] := by decide +kernel

theorem init_sim (os : Nat → List (BitVec 8)) (r : Rng) : Sim os (fun n => os (r.seeds + n)) (r.init os) PS.start := by
  refine ⟨fun k => ?_, rfl, Nat.le_refl _, rfl, (Sim.start r (os r.seeds) os).ctx, fun h => absurd h (by decide)⟩
  show os (r.seeds + 1 + k) = os (r.seeds + (0 + 1 + k))
  congr 1; omega

/-- C31. For every sequence of requests to a freshly initialised generator: no request fails, every byte delivered is
a byte of the ChaCha8 keystream of one of the seeds obtained from the operating system, and no two bytes delivered are the
same byte of the same keystream. (The keystream has a period of 2^70 bytes, which 2^38 requests cannot exhaust.) -/
theorem c31_no_reuse (os : Nat → List (BitVec 8)) (r : Rng) (qs : List RandomReq) :
    ∃ (r' : Rng) (pos : List (Nat × Nat)), (r.init os).reqs os qs = .ok (r', pos.map fun x => ofSeed (os (r.seeds + x.1)) x.2) ∧ pos.Nodup ∧
      ∀ x ∈ pos, x.2 < 2 ^ 32 * qs.length := by
  obtain ⟨r', h1, _⟩ := (init_sim os r).reqs qs
  refine ⟨r', (PS.start.reqs qs).2, h1, by simpa using (Used.start.reqs qs).nodup, fun x hx => ?_⟩
  have := (Used.start.upto_reqs qs).2 x hx
  simp only [PS.start, Nat.zero_add] at this
  rw [← Nat.mul_assoc] at this
  exact this

/-- C31. A request delivers as many bytes as were asked for. -/
theorem c31_length (os : Nat → List (BitVec 8)) (r : Rng) (qs : List RandomReq) (q : RandomReq) (hq : q.size < 2 ^ 32) {r1 : Rng} {out1 : List (BitVec 8)}
    (h1 : (r.init os).reqs os qs = .ok (r1, out1)) : ∃ r2 out2, r1.req os q = .ok (r2, out2) ∧ out2.length = q.size := by
  obtain ⟨r', h2, h3⟩ := (init_sim os r).reqs qs
  rw [h1] at h2
  cases h2
  obtain ⟨r2, h4, h5⟩ := h3.req q
  refine ⟨r2, _, h4, ?_⟩
  rw [List.length_map]
  exact PS.req_length h3.le q hq

/-- C31. If no request is for more than 128 bytes (the allocator itself asks for 2, 8 or 40 bytes), no more than 256 KiB of
the keystream of a seed are used: the generator takes a new seed from the operating system before. -/
theorem c31_reseed (os : Nat → List (BitVec 8)) (r : Rng) (qs : List RandomReq) (hq : ∀ q ∈ qs, q.size ≤ 128) :
    ∃ (r' : Rng) (pos : List (Nat × Nat)), (r.init os).reqs os qs = .ok (r', pos.map fun x => ofSeed (os (r.seeds + x.1)) x.2) ∧ pos.Nodup ∧
      ∀ x ∈ pos, x.2 < 256 * 1024 := by
  obtain ⟨r', h1, _⟩ := (init_sim os r).reqs qs
  exact ⟨r', (PS.start.reqs qs).2, h1, by simpa using (Used.start.reqs qs).nodup, (Small.start.reqs Used.start hq).2⟩

/-- C31. Larger requests are not counted: one request for 300000 bytes takes them all from the keystream of one seed. -/
theorem c31_large_uncounted (os : Nat → List (BitVec 8)) (r : Rng) :
    ∃ r', (r.init os).reqs os [.bytes 300000] = .ok (r', (List.range 300000).map (ofSeed (os r.seeds))) ∧ r'.reseed = 0 := by
  obtain ⟨r', h1, h2⟩ := (init_sim os r).reqs [.bytes 300000]
  have e : PS.start.reqs [.bytes 300000] = ({ PS.start with ctr := PS.start.ctr + (300000 % 2 ^ 32 + 63) / 64 }, posFrom 0 0 (300000 % 2 ^ 32) ++ []) := by
    rw [PS.reqs, PS.reqs]
    show (((PS.start.bytes 300000).1, []).1, (PS.start.bytes 300000).2 ++ []) = _
    rw [PS.bytes, if_pos (by norm_num)]
    rfl
  rw [e] at h1 h2
  refine ⟨r', ?_, h2.reseed⟩
  rw [h1]
  simp [posFrom, Function.comp_def, List.range_eq_range']

/-- C31. A generator that is set up from another one (`random_state_init_from_random_state`) takes bytes of the other's
keystream as its first seed, and uses no byte of its own keystreams twice. (With `c31_no_reuse` for the other one, whose
requests include this one: the seed is not delivered to anyone else.) -/
theorem c31_derived (os os' : Nat → List (BitVec 8)) (r c : Rng) (qs : List RandomReq) {r1 : Rng} {out1 : List (BitVec 8)}
    (h1 : (r.init os).reqs os qs = .ok (r1, out1)) :
    ∃ child r2 key, c.initFrom os r1 = .ok (child, r2) ∧ r1.req os (.bytes 40) = .ok (r2, key) ∧ key.length = 40 ∧
      ∀ qs', ∃ (c' : Rng) (pos : List (Nat × Nat)), child.reqs os' qs' =
          .ok (c', pos.map fun x => ofSeed (if x.1 = 0 then key else os' (c.seeds + (x.1 - 1))) x.2) ∧ pos.Nodup ∧
        ∀ x ∈ pos, x.2 < 2 ^ 32 * qs'.length := by
  obtain ⟨r2, key, h2, h3⟩ := c31_length os r qs (.bytes 40) (by decide) h1
  refine ⟨c.setup key, r2, key, ?_, h2, h3, fun qs' => ?_⟩
  · unfold Rng.initFrom
    rw [show r1.bytes os 40 = .ok (r2, key) from h2]
  · obtain ⟨r', h4, _⟩ := (Sim.start c key os').reqs qs'
    refine ⟨r', (PS.start.reqs qs').2, h4, by simpa using (Used.start.reqs qs').nodup, fun x hx => ?_⟩
    have := (Used.start.upto_reqs qs').2 x hx
    simp only [PS.start, Nat.zero_add] at this
    rw [← Nat.mul_assoc] at this
    exact this

/-- The hypotheses are met, beyond a change of the seed: 40000 values of 64 bits take two seeds. -/
example (os : Nat → List (BitVec 8)) (r : Rng) : ∃ (r' : Rng) (pos : List (Nat × Nat)), (r.init os).reqs os (List.replicate 40000 .u64) =
    .ok (r', pos.map fun x => ofSeed (os (r.seeds + x.1)) x.2) ∧ pos.Nodup ∧ ∀ x ∈ pos, x.2 < 256 * 1024 :=
  c31_reseed os r _ fun q hq => by rw [List.eq_of_mem_replicate hq]; decide

end HM
