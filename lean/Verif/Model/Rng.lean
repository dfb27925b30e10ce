/-!
# Model of the engine's random number generator

`pvtrace/engine/_kernel.pyx` lines 71-113. C `unsigned long long` arithmetic is
arithmetic modulo `2^64`, modelled by `BitVec 64`.
-/

namespace PV.Rng

/-- The additive constant of splitmix64. `_kernel.pyx:84`. -/
def gamma : BitVec 64 := 0x9E3779B97F4A7C15#64

/-- The output mixing of `_splitmix64`. `_kernel.pyx:85-88`. -/
def mix (z0 : BitVec 64) : BitVec 64 :=
  let z1 := (z0 ^^^ (z0 >>> 30)) * 0xBF58476D1CE4E5B9#64
  let z2 := (z1 ^^^ (z1 >>> 27)) * 0x94D049BB133111EB#64
  z2 ^^^ (z2 >>> 31)

/-- `_splitmix64`: advances the state and returns `(output, newState)`.
`_kernel.pyx:82-88`. -/
def splitmix64 (state : BitVec 64) : BitVec 64 × BitVec 64 :=
  let state' := state + gamma
  (mix state', state')

/-- `RNG`. `_kernel.pyx:75-79`. -/
structure State where
  s0 : BitVec 64
  s1 : BitVec 64
  s2 : BitVec 64
  s3 : BitVec 64
deriving DecidableEq, Repr

/-- `rng_seed`. `_kernel.pyx:91-96`. -/
def seedState (seed : BitVec 64) : State :=
  let (a, st1) := splitmix64 seed
  let (b, st2) := splitmix64 st1
  let (c, st3) := splitmix64 st2
  let (d, _) := splitmix64 st3
  ⟨a, b, c, d⟩

/-- `_rotl`. `_kernel.pyx:99-100`. -/
def rotl (x : BitVec 64) (k : Nat) : BitVec 64 := (x <<< k) ||| (x >>> (64 - k))

/-- The state update of `rng_uniform`, statement by statement.
`_kernel.pyx:106-112`. -/
def step (r : State) : State :=
  let t := r.s1 <<< 17
  let s2 := r.s2 ^^^ r.s0
  let s3 := r.s3 ^^^ r.s1
  let s1 := r.s1 ^^^ s2
  let s0 := r.s0 ^^^ s3
  let s2 := s2 ^^^ t
  let s3 := rotl s3 45
  ⟨s0, s1, s2, s3⟩

/-- The integer `result >> 11` from which the returned double is made.
`_kernel.pyx:105,113`. The returned value is this integer times `2^-53`, which
is exact in double precision. -/
def bits53 (r : State) : BitVec 64 := (r.s0 + r.s3) >>> 11

/-- `n` successive calls of `rng_uniform`: the state after them. -/
def iterate : Nat → State → State
  | 0, r => r
  | n + 1, r => iterate n (step r)

/-- The integers (numerators over `2^53`) of the first `n` draws. -/
def draws : Nat → State → List (BitVec 64)
  | 0, _ => []
  | n + 1, r => bits53 r :: draws n (step r)

/-- The generator state of ray `i` of a bundle. `_kernel.pyx:1081-1093`
(`seed + <unsigned long long>i`) and `_kernel.pyx:650`. -/
def rayState (seed : BitVec 64) (i : Nat) : State :=
  seedState (seed + BitVec.ofNat 64 i)

end PV.Rng
