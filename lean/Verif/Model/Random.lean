import Verif.Basic
import Mathlib.Data.Real.Basic
/-!
# Model of the shared random number generator and of random initialisation

`nnutils::get_generator`, `seed_generator`, `uuid` (app/tenncor/src/utils/utils.cpp), the initializers
(app/tenncor/src/tensor/tensor_handler.ipp:199-309), `variable::initialize` (app/tenncor/src/graph/leaf/variable.ipp:53-68),
`binomial_sample` on a node (app/tenncor/src/graph/operations/elementary.ipp:1240-1254), `dq_net::get_random` and the
shuffle of `dq_net::random_sample` (app/rocnnet/src/models/dq_net.cpp:335-343).

`σ` is the type of states of `std::default_random_engine`, `ρ` that of the state behind `std::rand`; the arithmetic of the
engine and of the distributions' transformations is a parameter, `Source`.  Elements are real numbers.
-/
namespace Verif
namespace Random

/-- The library's random arithmetic: seeding, `generate_canonical`, the pair of standard normal numbers made by
`normal_distribution`, one draw of `uniform_int_distribution(0, 15)`, one draw of `binomial_distribution(n, p)`, one
`random_shuffle` of n positions. -/
structure Source (σ ρ : Type) where
  seeded : Nat → σ
  canon : σ → ℝ × σ
  polar : σ → ℝ × ℝ × σ
  token : σ → Nat × σ
  binom : Nat → ℝ → σ → ℝ × σ
  shuffle : Nat → ρ → List Nat × ρ

/-- A distribution object: `uniform_real_distribution(a, b)`, or `normal_distribution(m, s)` with the number it has saved. -/
inductive Dist where
  | uniform (a b : ℝ)
  | normal (m s : ℝ) (saved : Option ℝ)

variable {σ ρ : Type}

/-- `distribution(engine)`. -/
noncomputable def draw (S : Source σ ρ) : Dist → σ → ℝ × Dist × σ
  | .uniform a b, g => ((S.canon g).1 * (b - a) + a, .uniform a b, (S.canon g).2)
  | .normal m s none, g => ((S.polar g).1 * s + m, .normal m s (some (S.polar g).2.1), (S.polar g).2.2)
  | .normal m s (some z), g => (z * s + m, .normal m s none, g)

/-- `std::generate(dest, dest + n, gen)` for `gen = std::bind(distribution_, get_generator())`, tensor_handler.ipp:270-272,
306-308: `std::bind` keeps copies of the distribution and of the engine, so what the calls change is lost. -/
noncomputable def generate (S : Source σ ρ) : Nat → Dist → σ → List ℝ
  | 0, _, _ => []
  | n + 1, d, g => (draw S d g).1 :: generate S n (draw S d g).2.1 (draw S d g).2.2

/-- `const_init`, or `rand_uniform` / `rand_normal` with the distribution it holds. -/
inductive Init where
  | const (v : ℝ)
  | random (d : Dist)

/-- `calc_data`, tensor_handler.ipp:232-237, 267-273, 303-309: the values written to n elements, and the state in which the
shared engine is left. -/
noncomputable def calcData (S : Source σ ρ) (i : Init) (n : Nat) (g : σ) : List ℝ × σ :=
  match i with
  | .const v => (List.replicate n v, g)
  | .random d => (generate S n d g, g)

/-- A variable: its initializer, its number of elements (its shape is fully defined) and its data. -/
structure Var where
  init : Option Init
  size : Nat
  data : Option (List ℝ)

/-- The shared engine, the state behind `std::rand` and the variables. -/
structure St (σ ρ : Type) where
  shared : σ
  libc : ρ
  vars : Nat → Var

/-- Calls that involve random numbers. -/
inductive Ev where
  | seed (v : Nat)
  | node
  | variable (x : Nat) (i : Option Init) (n : Nat)
  | init (x : Nat)
  | sample (n : Nat) (ps : List ℝ)
  | explore (a b : ℝ)
  | shuffle (n : Nat)

/-- What a call shows: the random part of an identifier, sampled numbers, an order. -/
inductive Out where
  | nothing
  | ident (ts : List Nat)
  | values (xs : List ℝ)
  | order (ps : List Nat)

/-- n tokens of an identifier, utils.cpp:38-42. -/
def tokens (S : Source σ ρ) : Nat → σ → List Nat × σ
  | 0, g => ([], g)
  | n + 1, g => ((S.token g).1 :: (tokens S n (S.token g).2).1, (tokens S n (S.token g).2).2)

/-- The draws of one evaluation of `binomial_sample(n, p)`, elementary.ipp:1246-1252, by reference to the shared engine. -/
noncomputable def samples (S : Source σ ρ) (n : Nat) : List ℝ → σ → List ℝ × σ
  | [], g => ([], g)
  | p :: ps, g => ((S.binom n p g).1 :: (samples S n ps (S.binom n p g).2).1, (samples S n ps (S.binom n p g).2).2)

/-- One call.  A new node draws its identifier (identifiable.hpp:42, utils.cpp:29-43); the time and address in the
identifier are not modelled.  `initialize` asserts that there is an initializer, variable.ipp:56. -/
noncomputable def step (S : Source σ ρ) (s : St σ ρ) : Ev → Outcome (St σ ρ × Out)
  | .seed v => .ok ({ s with shared := S.seeded v }, .nothing)
  | .node => .ok ({ s with shared := (tokens S 16 s.shared).2 }, .ident (tokens S 16 s.shared).1)
  | .variable x i n =>
    .ok (⟨(tokens S 16 s.shared).2, s.libc, fun y => if y = x then ⟨i, n, none⟩ else s.vars y⟩, .ident (tokens S 16 s.shared).1)
  | .init x =>
    match (s.vars x).init with
    | none => .abort
    | some i =>
      let r := calcData S i (s.vars x).size s.shared
      .ok (⟨r.2, s.libc, fun y => if y = x then ⟨some i, (s.vars x).size, some r.1⟩ else s.vars y⟩, .nothing)
  | .sample n ps =>
    if ∀ p ∈ ps, 0 ≤ p ∧ p ≤ 1 then .ok ({ s with shared := (samples S n ps s.shared).2 }, .values (samples S n ps s.shared).1)
    else .abort
  | .explore a b => .ok ({ s with shared := (draw S (.uniform a b) s.shared).2.2 }, .values [(draw S (.uniform a b) s.shared).1])
  | .shuffle n => .ok ({ s with libc := (S.shuffle n s.libc).2 }, .order (S.shuffle n s.libc).1)

/-- A program: the final state and what each call showed. -/
noncomputable def run (S : Source σ ρ) : St σ ρ → List Ev → Outcome (St σ ρ × List Out)
  | s, [] => .ok (s, [])
  | s, e :: es => step S s e >>= fun r => run S r.1 es >>= fun q => .ok (q.1, r.2 :: q.2)

end Random
end Verif
