import Verif.Prng.Model
/-
  C42: what a user can do with a generator and see of it.
-/
namespace CRU.Prng

/-- One call on a generator object. -/
inductive Call where
  | draw
  | discard (z : U64)
  | seed (s : U64)

variable {σ : Type}

/-- The outputs seen in a sequence of calls, and the state afterwards. -/
def Machine.run (m : Machine σ) : List Call → σ → List U64 × σ
  | [], s => ([], s)
  | .draw :: cs, s =>
    let d := m.next s
    let r := m.run cs d.2
    (d.1 :: r.1, r.2)
  | .discard z :: cs, s => m.run cs (m.discard z.toNat s)
  | .seed x :: cs, s => m.run cs (m.seed s x)

/-- The object after a history of calls. -/
def Machine.after (m : Machine σ) (s : U64) (history : List Call) : σ := (m.run history (m.construct s)).2

/-- The outputs of the calls `later`, made on an object constructed with `s0` after the calls `history`. -/
def Machine.outputs (m : Machine σ) (s0 : U64) (history later : List Call) : List U64 := (m.run later (m.after s0 history)).1

/-- The `n`-th output (from 0) of a generator constructed with seed `s`. -/
def Machine.output (m : Machine σ) (s : U64) (n : Nat) : U64 := (m.next (m.discard n (m.construct s))).1

/-- Re-seeding is reproducible: whatever was done before, after `seed(s)` the generator behaves like a new one made with `s`. -/
def Machine.Reseeds (m : Machine σ) : Prop :=
  ∀ (s0 s : U64) (history later : List Call), m.outputs s0 (history ++ [.seed s]) later = m.outputs s [] later

end CRU.Prng
