import Verif.Astar.Props
import Verif.Astar.EqualSpec
/-
  `PerformAstarSearch` with a caller-supplied `StateHash` and `StateEqual` (simple_astar_search.hpp:222-434): both maps of
  the search are `std::unordered_map<T, …, StateHash, StateEqual>`. Here the maps are modelled as what they are, entries
  that are found by bucket and equality, and nothing is assumed about hash and equality in the model.
-/
namespace CRU.Astar

variable {S C V : Type}

/-- The last two arguments of the search, and the bucket count the map chooses for a number of entries
(simple_astar_search.hpp:234-235, 280-281, 291-292, 318-319). Simplification: the bucket count depends on the number of
entries only. -/
structure Keying (S : Type) where
  hash : S → Nat
  eq : S → S → Bool
  buckets : Nat → Nat

/-- The requirement of `std::unordered_map`: the equality is an equivalence relation, and equal states have equal hashes. -/
structure Keying.Lawful (K : Keying S) : Prop where
  refl : ∀ a, K.eq a a = true
  symm : ∀ {a b}, K.eq a b = true → K.eq b a = true
  trans : ∀ {a b c}, K.eq a b = true → K.eq b c = true → K.eq a c = true
  hash : ∀ {a b}, K.eq a b = true → K.hash a = K.hash b

/-- The map looks only at entries in the bucket of the key, and takes one that the equality accepts.
(simple_astar_search.hpp:291-292, 318-319) -/
def sees (K : Keying S) (n : Nat) (k x : S) : Bool :=
  K.hash x % K.buckets n == K.hash k % K.buckets n && K.eq x k

/-- `map.find(k)`, and `map.at(k)` up to the exception. (simple_astar_search.hpp:297, 324, 159) -/
def find (K : Keying S) (m : List (S × V)) (k : S) : Option V :=
  (m.find? fun e => sees K m.length k e.1).map (·.2)

/-- Body of `assign`: an existing entry keeps its key. (simple_astar_search.hpp:345, 374, 417) -/
def assignLoop (p : S → Bool) (k : S) (v : V) : List (S × V) → List (S × V)
  | [] => [(k, v)]
  | e :: es => if p e.1 then (e.1, v) :: es else e :: assignLoop p k v es

/-- `map[k] = v`. (simple_astar_search.hpp:345, 374, 417) -/
def assign (K : Keying S) (m : List (S × V)) (k : S) (v : V) : List (S × V) :=
  assignLoop (sees K m.length k) k v m

/-- `map.erase(k)`. (simple_astar_search.hpp:363) -/
def eraseKey (K : Keying S) (m : List (S × V)) (k : S) : List (S × V) :=
  m.eraseP fun e => sees K m.length k e.1

/-- simple_astar_search.hpp:274-314 the local state of the search, with the two maps. -/
structure StE (S C : Type) where
  queue : List (Elem S C)
  members : List (S × C)
  explored : List (S × (C × Option S))

variable [LinearOrder C] [Add C] [Zero C] [OrderTop C]

/-- simple_astar_search.hpp:289-308 `is_queue_better`. -/
def queueBetterE (K : Keying S) (P : Problem S C) (members : List (S × C)) (s : S) (c : C) : Bool :=
  if P.limit then
    match find K members s with
    | some c' => decide (c ≥ c')
    | none => false
  else false

/-- simple_astar_search.hpp:318-330 `is_explored_better`. -/
def exploredBetterE (K : Keying S) (explored : List (S × (C × Option S))) (s : S) (c : C) : Bool :=
  match find K explored s with
  | some e => decide (c ≥ e.1)
  | none => false

/-- simple_astar_search.hpp:340-346, 412-418. -/
def pushE (K : Keying S) (P : Problem S C) (st : StE S C) (e : Elem S C) : StE S C :=
  { st with
    queue := e :: st.queue
    members := if P.limit then assign K st.members e.state e.cost else st.members }

/-- simple_astar_search.hpp:333-348. -/
def pushStartE (K : Keying S) (P : Problem S C) (st : StE S C) (s : S × C) : StE S C :=
  if queueBetterE K P st.members s.1 s.2 then st else pushE K P st ⟨s.1, none, s.2, P.h s.1⟩

/-- simple_astar_search.hpp:274-348. -/
def initE (K : Keying S) (P : Problem S C) (starts : List (S × C)) : StE S C :=
  starts.foldl (pushStartE K P) ⟨[], [], []⟩

/-- simple_astar_search.hpp:386-420. -/
def pushKidE (K : Keying S) (P : Problem S C) (parent : S) (pc : C) (st : StE S C) (kid : S × C) : StE S C :=
  if exploredBetterE K st.explored kid.1 (pc + kid.2) || queueBetterE K P st.members kid.1 (pc + kid.2) then st
  else pushE K P st ⟨kid.1, some parent, pc + kid.2, pc + kid.2 + P.h kid.1⟩

/-- simple_astar_search.hpp:361-364. -/
def erasedE (K : Keying S) (P : Problem S C) (members : List (S × C)) (s : S) : List (S × C) :=
  if P.limit then eraseKey K members s else members

/-- simple_astar_search.hpp:354-422, one iteration of the search loop that does not leave it. -/
inductive StepE (K : Keying S) (P : Problem S C) : StE S C → StE S C → Prop
  | skip {st : StE S C} {top : Elem S C} {rest : List (Elem S C)} (hp : Pop st.queue top rest)
      (hb : exploredBetterE K st.explored top.state top.cost = true) :
      StepE K P st ⟨rest, erasedE K P st.members top.state, st.explored⟩
  | expand {st : StE S C} {top : Elem S C} {rest : List (Elem S C)} {kids : List (S × C)} (hp : Pop st.queue top rest)
      (hb : exploredBetterE K st.explored top.state top.cost = false) (hg : P.goal top.state = false)
      (hk : P.expand top.state = .ok kids) :
      StepE K P st (kids.foldl (pushKidE K P top.state top.cost)
        ⟨rest, erasedE K P st.members top.state, assign K st.explored top.state (top.cost, top.back)⟩)

/-- simple_astar_search.hpp:155-166. -/
inductive ChainE (K : Keying S) (explored : List (S × (C × Option S))) : Option S → Res (List S) → Prop
  | nil : ChainE K explored none (.ok [])
  | cons {p : S} {c : C} {b : Option S} {l : List S} (h : find K explored p = some (c, b)) (hc : ChainE K explored b (.ok l)) :
      ChainE K explored (some p) (.ok (p :: l))
  | consThrow {p : S} {c : C} {b : Option S} {e : Exc} (h : find K explored p = some (c, b))
      (hc : ChainE K explored b (.throw e)) : ChainE K explored (some p) (.throw e)
  | missing {p : S} (h : find K explored p = none) : ChainE K explored (some p) (.throw .outOfRange)

/-- simple_astar_search.hpp:138-176 `ExtractAstarResult`. -/
inductive ExtractE (K : Keying S) (explored : List (S × (C × Option S))) (g : S) : Res (List S × C) → Prop
  | notFound (h : find K explored g = none) : ExtractE K explored g (.ok ([], ⊤))
  | found {c : C} {b : Option S} {r : Res (List S)} (h : find K explored g = some (c, b)) (hc : ChainE K explored b r) :
      ExtractE K explored g (do
        let l ← r
        mkResult (g :: l).reverse c)

/-- simple_astar_search.hpp:354-433. -/
inductive EndsE (K : Keying S) (P : Problem S C) : StE S C → Res (List S × C) → Prop
  | empty {st : StE S C} (h : st.queue = []) : EndsE K P st (.ok ([], ⊤))
  | goal {st : StE S C} {top : Elem S C} {rest : List (Elem S C)} {r : Res (List S × C)} (hp : Pop st.queue top rest)
      (hb : exploredBetterE K st.explored top.state top.cost = false) (hg : P.goal top.state = true)
      (hx : ExtractE K (assign K st.explored top.state (top.cost, top.back)) top.state r) : EndsE K P st r
  | throws {st : StE S C} {top : Elem S C} {rest : List (Elem S C)} {e : Exc} (hp : Pop st.queue top rest)
      (hb : exploredBetterE K st.explored top.state top.cost = false) (hg : P.goal top.state = false)
      (hk : P.expand top.state = .throw e) : EndsE K P st (.throw e)
  | ub {st : StE S C} {top : Elem S C} {rest : List (Elem S C)} (hp : Pop st.queue top rest)
      (hb : exploredBetterE K st.explored top.state top.cost = false) (hg : P.goal top.state = false)
      (hk : P.expand top.state = .ub) : EndsE K P st .ub

/-- Any number of iterations. (simple_astar_search.hpp:354-422) -/
inductive StepsE (K : Keying S) (P : Problem S C) : StE S C → StE S C → Prop
  | refl (st : StE S C) : StepsE K P st st
  | step {a b c : StE S C} (h : StepE K P a b) (t : StepsE K P b c) : StepsE K P a c

/-- simple_astar_search.hpp:227-434 `PerformAstarSearch` with hash and equality: `r` is a possible outcome. -/
inductive AstarRunE (K : Keying S) (P : Problem S C) (starts : List (S × C)) : Res (List S × C) → Prop
  | noStarts (h : starts = []) : AstarRunE K P starts (.throw .invalidArgument)
  | early {s : S × C} (hs : starts ≠ []) (h : bestStart P.goal starts = some s) : AstarRunE K P starts (mkResult [s.1] s.2)
  | search {st : StE S C} {r : Res (List S × C)} (hs : starts ≠ []) (h : bestStart P.goal starts = none)
      (hrun : StepsE K P (initE K P starts) st) (he : EndsE K P st r) : AstarRunE K P starts r

/-! ### The maps -/

/-- No two entries have equal keys. -/
def Uniq (K : Keying S) (m : List (S × V)) : Prop := m.Pairwise fun a b => K.eq a.1 b.1 = false

omit [LinearOrder C] [Add C] [Zero C] [OrderTop C]

theorem sees_eq {K : Keying S} (hK : K.Lawful) (n : Nat) (k x : S) : sees K n k x = K.eq x k := by
  unfold sees
  cases h : K.eq x k with
  | false => simp
  | true => simp [hK.hash h]

theorem eq_left {K : Keying S} (hK : K.Lawful) {a b : S} (h : K.eq a b = true) (x : S) : K.eq x a = K.eq x b := by
  cases h1 : K.eq x a with
  | true => exact (hK.trans h1 h).symm
  | false =>
    cases h2 : K.eq x b with
    | false => rfl
    | true => rw [hK.trans h2 (hK.symm h)] at h1; cases h1

theorem eq_comm' {K : Keying S} (hK : K.Lawful) (a b : S) : K.eq a b = K.eq b a := by
  cases h : K.eq a b with
  | true => exact (hK.symm h).symm
  | false =>
    cases h2 : K.eq b a with
    | false => rfl
    | true => rw [hK.symm h2] at h; cases h

theorem find_eq {K : Keying S} (hK : K.Lawful) (m : List (S × V)) (k : S) :
    find K m k = (m.find? fun e => K.eq e.1 k).map (·.2) := by
  unfold find
  congr 2
  funext e
  exact sees_eq hK _ _ _

theorem find_congr {K : Keying S} (hK : K.Lawful) (m : List (S × V)) {a b : S} (h : K.eq a b = true) :
    find K m a = find K m b := by
  rw [find_eq hK, find_eq hK]
  congr 2
  funext e
  exact eq_left hK h _

theorem find_cons {K : Keying S} (hK : K.Lawful) (e : S × V) (m : List (S × V)) (k : S) :
    find K (e :: m) k = if K.eq e.1 k then some e.2 else find K m k := by
  rw [find_eq hK, find_eq hK, List.find?_cons]
  cases K.eq e.1 k <;> simp

theorem find_nil (K : Keying S) (k : S) : find K ([] : List (S × V)) k = none := rfl

theorem find_assignLoop {K : Keying S} (hK : K.Lawful) (k : S) (v : V) (m : List (S × V)) (x : S) :
    find K (assignLoop (fun y => K.eq y k) k v m) x = if K.eq x k then some v else find K m x := by
  induction m with
  | nil => rw [assignLoop, find_cons hK, find_nil, eq_comm' hK]
  | cons e m ih =>
    rw [assignLoop]
    cases he : K.eq e.1 k with
    | true =>
      rw [if_pos rfl, find_cons hK, find_cons hK]
      simp only
      rw [eq_comm' hK e.1 x, eq_left hK he x]
      cases K.eq x k <;> rfl
    | false =>
      rw [if_neg (by simp), find_cons hK, find_cons hK, ih]
      cases hx : K.eq x k with
      | false => simp
      | true =>
        have : K.eq e.1 x = false := by rw [eq_left hK hx]; exact he
        simp [this]

theorem find_assign {K : Keying S} (hK : K.Lawful) (m : List (S × V)) (k : S) (v : V) (x : S) :
    find K (assign K m k v) x = if K.eq x k then some v else find K m x := by
  unfold assign
  have : sees K m.length k = fun y => K.eq y k := funext fun y => sees_eq hK _ _ _
  rw [this, find_assignLoop hK]

theorem assignLoop_mem {p : S → Bool} {k : S} {v : V} {m : List (S × V)} {e : S × V} (h : e ∈ assignLoop p k v m) :
    e.1 = k ∧ (∀ x ∈ m, p x.1 = false) ∨ ∃ x ∈ m, x.1 = e.1 := by
  induction m with
  | nil => rw [assignLoop] at h; simp at h; exact .inl ⟨by rw [h], by simp⟩
  | cons a m ih =>
    rw [assignLoop] at h
    cases ha : p a.1 with
    | true =>
      rw [if_pos ha] at h
      rcases List.mem_cons.1 h with rfl | h
      · exact .inr ⟨a, by simp, rfl⟩
      · exact .inr ⟨e, by simp [h], rfl⟩
    | false =>
      rw [if_neg (by simp [ha])] at h
      rcases List.mem_cons.1 h with rfl | h
      · exact .inr ⟨_, by simp, rfl⟩
      · rcases ih h with ⟨h1, h2⟩ | ⟨x, hx, he⟩
        · refine .inl ⟨h1, fun x hx => ?_⟩
          rcases List.mem_cons.1 hx with rfl | hx
          · exact ha
          · exact h2 x hx
        · exact .inr ⟨x, by simp [hx], he⟩

theorem uniq_assign {K : Keying S} (hK : K.Lawful) {m : List (S × V)} (h : Uniq K m) (k : S) (v : V) :
    Uniq K (assign K m k v) := by
  unfold assign
  have : sees K m.length k = fun y => K.eq y k := funext fun y => sees_eq hK _ _ _
  rw [this]
  unfold Uniq at h ⊢
  clear this
  induction m with
  | nil => simp [assignLoop]
  | cons a m ih =>
    rw [List.pairwise_cons] at h
    rw [assignLoop]
    cases ha : K.eq a.1 k with
    | true =>
      rw [if_pos rfl, List.pairwise_cons]
      exact ⟨fun x hx => h.1 x hx, h.2⟩
    | false =>
      rw [if_neg (by simp), List.pairwise_cons]
      refine ⟨fun x hx => ?_, ih h.2⟩
      rcases assignLoop_mem hx with ⟨h1, _⟩ | ⟨y, hy, he⟩
      · rw [h1]; exact ha
      · rw [← he]; exact h.1 y hy

theorem find_erase {K : Keying S} (hK : K.Lawful) {m : List (S × V)} (h : Uniq K m) (k x : S) :
    find K (eraseKey K m k) x = if K.eq x k then none else find K m x := by
  unfold eraseKey
  have : (fun e : S × V => sees K m.length k e.1) = fun e => K.eq e.1 k := funext fun y => sees_eq hK _ _ _
  rw [this]
  clear this
  unfold Uniq at h
  induction m with
  | nil => simp [find_nil]
  | cons a m ih =>
    rw [List.pairwise_cons] at h
    rw [List.eraseP_cons]
    cases ha : K.eq a.1 k with
    | true =>
      rw [cond_true, find_cons hK]
      cases hx : K.eq x k with
      | true =>
        rw [if_pos rfl, find_eq hK]
        have : m.find? (fun e => K.eq e.1 x) = none := by
          rw [List.find?_eq_none]
          intro y hy
          have h1 := h.1 y hy
          rw [eq_left hK hx]
          intro hyk
          rw [hK.trans ha (hK.symm hyk)] at h1
          cases h1
        rw [this]; rfl
      | false =>
        rw [if_neg (by simp), eq_comm' hK a.1 x, eq_left hK ha x, hx]
        simp
    | false =>
      rw [cond_false, find_cons hK, find_cons hK, ih h.2]
      cases hx : K.eq x k with
      | false => simp
      | true =>
        have : K.eq a.1 x = false := by rw [eq_left hK hx]; exact ha
        simp [this]

theorem uniq_erase {K : Keying S} {m : List (S × V)} (h : Uniq K m) (k : S) : Uniq K (eraseKey K m k) :=
  List.Pairwise.sublist List.eraseP_sublist h

end CRU.Astar
