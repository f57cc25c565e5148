import Verif.Astar.EqualSound
/-
  Two simulations of the search with hash and equality: by the same search with another hash function, and, when the
  callbacks respect the equality, by the search on the classes of equal states.
-/
namespace CRU.Astar
set_option linter.unusedSectionVars false

variable {S C : Type} [LinearOrder C] [Add C] [Zero C] [OrderTop C]

/-! ### Another hash function -/

/-- Same queue, same contents of the maps. -/
structure Same (K L : Keying S) (a b : StE S C) : Prop where
  queue : a.queue = b.queue
  members : ∀ k, find K a.members k = find L b.members k
  explored : ∀ k, find K a.explored k = find L b.explored k
  ua : Uniq K a.members
  ub : Uniq L b.members

section hash
variable {K L : Keying S} (hK : K.Lawful) (hL : L.Lawful) (heq : K.eq = L.eq) {P : Problem S C}
include hK hL heq

theorem same_assign {V : Type} {m n : List (S × V)} (h : ∀ k, find K m k = find L n k) (s : S) (v : V) (k : S) :
    find K (assign K m s v) k = find L (assign L n s v) k := by
  rw [find_assign hK, find_assign hL, h, heq]

omit hK hL heq in
theorem same_qb {m n : List (S × C)} (h : ∀ k, find K m k = find L n k) (s : S) (c : C) :
    queueBetterE K P m s c = queueBetterE L P n s c := by
  unfold queueBetterE; rw [h]

omit hK hL heq in
theorem same_eb {m n : List (S × (C × Option S))} (h : ∀ k, find K m k = find L n k) (s : S) (c : C) :
    exploredBetterE K m s c = exploredBetterE L n s c := by
  unfold exploredBetterE; rw [h]

theorem Same.push {a b : StE S C} (h : Same K L a b) (e : Elem S C) : Same K L (pushE K P a e) (pushE L P b e) := by
  unfold pushE
  refine ⟨by simp [h.queue], ?_, h.explored, ?_, ?_⟩
  · intro k
    simp only
    split
    · exact same_assign hK hL heq h.members _ _ _
    · exact h.members k
  · simp only
    split
    · exact uniq_assign hK h.ua _ _
    · exact h.ua
  · simp only
    split
    · exact uniq_assign hL h.ub _ _
    · exact h.ub

theorem Same.starts {a b : StE S C} (h : Same K L a b) (l : List (S × C)) :
    Same K L (l.foldl (pushStartE K P) a) (l.foldl (pushStartE L P) b) := by
  induction l generalizing a b with
  | nil => exact h
  | cons x l ih =>
    apply ih
    unfold pushStartE
    rw [same_qb h.members]
    split
    · exact h
    · exact h.push hK hL heq _

theorem Same.kids {a b : StE S C} (h : Same K L a b) (s : S) (c : C) (l : List (S × C)) :
    Same K L (l.foldl (pushKidE K P s c) a) (l.foldl (pushKidE L P s c) b) := by
  induction l generalizing a b with
  | nil => exact h
  | cons x l ih =>
    apply ih
    unfold pushKidE
    rw [same_qb h.members, same_eb h.explored]
    split
    · exact h
    · exact h.push hK hL heq _

theorem Same.erased {a b : StE S C} (h : Same K L a b) (s : S) :
    (∀ k, find K (erasedE K P a.members s) k = find L (erasedE L P b.members s) k) ∧
      Uniq K (erasedE K P a.members s) ∧ Uniq L (erasedE L P b.members s) := by
  unfold erasedE
  split
  · refine ⟨fun k => ?_, uniq_erase h.ua _, uniq_erase h.ub _⟩
    rw [find_erase hK h.ua, find_erase hL h.ub, h.members, heq]
  · exact ⟨h.members, h.ua, h.ub⟩

theorem Same.step {a b a' : StE S C} (h : Same K L a b) (hs : StepE K P a a') : ∃ b', StepE L P b b' ∧ Same K L a' b' := by
  cases hs with
  | @skip top rest hp hb =>
    obtain ⟨e1, e2, e3⟩ := h.erased hK hL heq (P := P) top.state
    exact ⟨_, .skip (h.queue ▸ hp) (by rw [← same_eb h.explored]; exact hb), ⟨rfl, e1, h.explored, e2, e3⟩⟩
  | @expand top rest kids hp hb hg hk =>
    obtain ⟨e1, e2, e3⟩ := h.erased hK hL heq (P := P) top.state
    refine ⟨_, .expand (h.queue ▸ hp) (by rw [← same_eb h.explored]; exact hb) hg hk, ?_⟩
    apply Same.kids hK hL heq
    exact ⟨rfl, e1, fun k => same_assign hK hL heq h.explored _ _ _, e2, e3⟩

theorem Same.steps {a b a' : StE S C} (h : Same K L a b) (hs : StepsE K P a a') : ∃ b', StepsE L P b b' ∧ Same K L a' b' := by
  induction hs generalizing b with
  | refl => exact ⟨b, .refl _, h⟩
  | step h1 _ ih =>
    obtain ⟨b1, s1, r1⟩ := h.step hK hL heq h1
    obtain ⟨b2, s2, r2⟩ := ih r1
    exact ⟨b2, .step s1 s2, r2⟩

omit hK hL heq in
theorem same_chain {m n : List (S × (C × Option S))} (h : ∀ k, find K m k = find L n k) {b : Option S} {r : Res (List S)}
    (hc : ChainE K m b r) : ChainE L n b r := by
  induction hc with
  | nil => exact .nil
  | cons h1 _ ih => exact .cons (by rw [← h]; exact h1) ih
  | consThrow h1 _ ih => exact .consThrow (by rw [← h]; exact h1) ih
  | missing h1 => exact .missing (by rw [← h]; exact h1)

theorem Same.ends {a b : StE S C} (h : Same K L a b) {r : Res (List S × C)} (he : EndsE K P a r) : EndsE L P b r := by
  cases he with
  | empty h1 => exact .empty (h.queue ▸ h1)
  | @goal top rest _ hp hb hg hx =>
    refine .goal (h.queue ▸ hp) (by rw [← same_eb h.explored]; exact hb) hg ?_
    have hm := same_assign (V := C × Option S) hK hL heq h.explored
    cases hx with
    | notFound h1 => exact .notFound (by rw [← hm]; exact h1)
    | found h1 hc => exact .found (by rw [← hm]; exact h1) (same_chain (hm _ _) hc)
  | throws hp hb hg hk => exact .throws (h.queue ▸ hp) (by rw [← same_eb h.explored]; exact hb) hg hk
  | ub hp hb hg hk => exact .ub (h.queue ▸ hp) (by rw [← same_eb h.explored]; exact hb) hg hk

theorem run_other_hash {starts : List (S × C)} {r : Res (List S × C)} (h : AstarRunE K P starts r) : AstarRunE L P starts r := by
  cases h with
  | noStarts h => exact .noStarts h
  | early hs h => exact .early hs h
  | search hs h hrun he =>
    have h0 : Same K L (initE K P starts) (initE L P starts) :=
      Same.starts hK hL heq (a := ⟨[], [], []⟩) (b := ⟨[], [], []⟩)
        ⟨rfl, fun k => rfl, fun k => rfl, List.Pairwise.nil, List.Pairwise.nil⟩ starts
    obtain ⟨b', s, r⟩ := h0.steps hK hL heq hrun
    exact .search hs h s (r.ends hK hL heq he)

end hash

/-! ### The search on classes of equal states -/

variable {Q : Type} [DecidableEq Q]

/-- An element, with its states replaced by their classes. -/
def mapElem (f : S → Q) (e : Elem S C) : Elem Q C := ⟨f e.state, e.back.map f, e.cost, e.value⟩

/-- What the child function returned, with states replaced by their classes. -/
def mapKids (f : S → Q) (r : Res (List (S × C))) : Res (List (Q × C)) := r >>= fun l => .ok (l.map fun x => (f x.1, x.2))

/-- An outcome, with states replaced by their classes. -/
def mapOut (f : S → Q) (r : Res (List S × C)) : Res (List Q × C) := r >>= fun x => .ok (x.1.map f, x.2)

/-- `f` maps states to classes of the equality, and `P'` is the problem on classes. -/
structure OnClasses (K : Keying S) (f : S → Q) (P : Problem S C) (P' : Problem Q C) : Prop where
  cls : ∀ a b, K.eq a b = true ↔ f a = f b
  goal : ∀ s, P'.goal (f s) = P.goal s
  h : ∀ s, P'.h (f s) = P.h s
  expand : ∀ s, P'.expand (f s) = mapKids f (P.expand s)
  limit : P'.limit = P.limit

structure Sim (K : Keying S) (f : S → Q) (a : StE S C) (b : St Q C) : Prop where
  queue : b.queue = a.queue.map (mapElem f)
  members : ∀ k, b.members (f k) = find K a.members k
  explored : ∀ k, b.explored (f k) = (find K a.explored k).map fun e => (e.1, e.2.map f)
  uniq : Uniq K a.members

section classes
variable {K : Keying S} (hK : K.Lawful) {f : S → Q} {P : Problem S C} {P' : Problem Q C} (hO : OnClasses K f P P')
include hK hO

omit hK in
theorem sim_qb {a : StE S C} {b : St Q C} (h : Sim K f a b) (s : S) (c : C) :
    queueBetter P' b.members (f s) c = queueBetterE K P a.members s c := by
  unfold queueBetter queueBetterE
  rw [h.members, hO.limit]
  cases find K a.members s <;> rfl

omit hK hO in
theorem sim_eb {a : StE S C} {b : St Q C} (h : Sim K f a b) (s : S) (c : C) :
    exploredBetter b.explored (f s) c = exploredBetterE K a.explored s c := by
  unfold exploredBetter exploredBetterE
  rw [h.explored]
  cases find K a.explored s <;> rfl

theorem sim_assign {V W : Type} (g : V → W) {m : List (S × V)} {n : Q → Option W} (h : ∀ k, n (f k) = (find K m k).map g)
    (s : S) (v : V) (k : S) : upd n (f s) (some (g v)) (f k) = (find K (assign K m s v) k).map g := by
  rw [find_assign hK]
  unfold upd
  by_cases hks : K.eq k s = true
  · rw [if_pos hks, if_pos ((hO.cls k s).1 hks)]; rfl
  · rw [if_neg hks, if_neg (fun h => hks ((hO.cls k s).2 h))]; exact h k

theorem Sim.push {a : StE S C} {b : St Q C} (h : Sim K f a b) (e : Elem S C) :
    Sim K f (pushE K P a e) (push P' b (mapElem f e)) := by
  unfold pushE CRU.Astar.push
  refine ⟨by simp [h.queue], ?_, h.explored, ?_⟩
  · intro k
    simp only [hO.limit]
    split
    · have := sim_assign hK hO (g := id) (m := a.members) (n := b.members) (by simpa using h.members) e.state e.cost k
      simpa [mapElem] using this
    · exact h.members k
  · simp only
    split
    · exact uniq_assign hK h.uniq _ _
    · exact h.uniq

theorem Sim.starts {a : StE S C} {b : St Q C} (h : Sim K f a b) (l : List (S × C)) :
    Sim K f (l.foldl (pushStartE K P) a) ((l.map fun x => (f x.1, x.2)).foldl (pushStart P') b) := by
  induction l generalizing a b with
  | nil => exact h
  | cons x l ih =>
    simp only [List.map_cons, List.foldl_cons]
    apply ih
    unfold pushStartE pushStart
    simp only
    rw [sim_qb hO h]
    split
    · exact h
    · have := h.push hK hO ⟨x.1, none, x.2, P.h x.1⟩
      simp only [mapElem, Option.map_none, ← hO.h] at this
      simpa [hO.h] using this

theorem Sim.kids {a : StE S C} {b : St Q C} (h : Sim K f a b) (s : S) (c : C) (l : List (S × C)) :
    Sim K f (l.foldl (pushKidE K P s c) a) ((l.map fun x => (f x.1, x.2)).foldl (pushKid P' (f s) c) b) := by
  induction l generalizing a b with
  | nil => exact h
  | cons x l ih =>
    simp only [List.map_cons, List.foldl_cons]
    apply ih
    unfold pushKidE pushKid
    simp only
    rw [sim_qb hO h, sim_eb h]
    split
    · exact h
    · have := h.push hK hO ⟨x.1, some s, c + x.2, c + x.2 + P.h x.1⟩
      simp only [mapElem, Option.map_some] at this
      rw [hO.h]
      exact this

omit hK hO in
theorem pop_map {q : List (Elem S C)} {top : Elem S C} {rest : List (Elem S C)} (h : Pop q top rest) :
    Pop (q.map (mapElem f)) (mapElem f top) (rest.map (mapElem f)) := by
  refine ⟨by simpa using h.1.map (mapElem f), ?_⟩
  intro e he
  obtain ⟨x, hx, rfl⟩ := List.mem_map.1 he
  exact h.2 x hx

theorem Sim.erased {a : StE S C} {b : St Q C} (h : Sim K f a b) (s : S) :
    (∀ k, erased P' b.members (f s) (f k) = find K (erasedE K P a.members s) k) ∧ Uniq K (erasedE K P a.members s) := by
  unfold CRU.Astar.erased erasedE
  rw [hO.limit]
  split
  · refine ⟨fun k => ?_, uniq_erase h.uniq _⟩
    rw [find_erase hK h.uniq]
    unfold upd
    by_cases hks : K.eq k s = true
    · rw [if_pos hks, if_pos ((hO.cls k s).1 hks)]
    · rw [if_neg hks, if_neg (fun h => hks ((hO.cls k s).2 h))]; exact h.members k
  · exact ⟨h.members, h.uniq⟩

theorem Sim.step {a a' : StE S C} {b : St Q C} (h : Sim K f a b) (hs : StepE K P a a') :
    ∃ b', Step P' b b' ∧ Sim K f a' b' := by
  cases hs with
  | @skip top rest hp hb =>
    obtain ⟨e1, e2⟩ := h.erased hK hO top.state
    refine ⟨_, .skip (top := mapElem f top) (rest := rest.map (mapElem f)) (by rw [h.queue]; exact pop_map hp)
      (by rw [← hb]; exact sim_eb h _ _), ⟨rfl, e1, h.explored, e2⟩⟩
  | @expand top rest kids hp hb hg hk =>
    obtain ⟨e1, e2⟩ := h.erased hK hO top.state
    refine ⟨_, .expand (top := mapElem f top) (rest := rest.map (mapElem f)) (kids := kids.map fun x => (f x.1, x.2))
      (by rw [h.queue]; exact pop_map hp) (by rw [← hb]; exact sim_eb h _ _) (by rw [← hg]; exact hO.goal _)
      (by show P'.expand (f top.state) = _; rw [hO.expand, hk]; rfl), ?_⟩
    apply Sim.kids hK hO
    refine ⟨rfl, e1, ?_, e2⟩
    exact sim_assign hK hO (fun e : C × Option S => (e.1, e.2.map f)) h.explored top.state (top.cost, top.back)

theorem Sim.steps {a a' : StE S C} {b : St Q C} (h : Sim K f a b) (hs : StepsE K P a a') :
    ∃ b', Steps P' b b' ∧ Sim K f a' b' := by
  induction hs generalizing b with
  | refl => exact ⟨b, .refl _, h⟩
  | step h1 _ ih =>
    obtain ⟨b1, s1, r1⟩ := h.step hK hO h1
    obtain ⟨b2, s2, r2⟩ := ih r1
    exact ⟨b2, .step s1 s2, r2⟩

omit hK hO in
theorem sim_chain {m : List (S × (C × Option S))} {n : Q → Option (C × Option Q)}
    (h : ∀ k, n (f k) = (find K m k).map fun e => (e.1, e.2.map f)) {b : Option S} {r : Res (List S)}
    (hc : ChainE K m b r) : Chain n (b.map f) (r >>= fun l => .ok (l.map f)) := by
  induction hc with
  | nil => exact .nil
  | @cons p c b l h1 _ ih => exact .cons (c := c) (b := b.map f) (by rw [h, h1]; rfl) ih
  | @consThrow p c b e h1 _ ih => exact .consThrow (c := c) (b := b.map f) (by rw [h, h1]; rfl) ih
  | missing h1 => exact .missing (by rw [h, h1]; rfl)

omit [Add C] [Zero C] hK hO in
theorem mkResult_map (path : List S) (c : C) : mkResult (path.map f) c = mapOut f (mkResult path c) := by
  unfold mkResult mapOut
  by_cases h : path ≠ [] ∧ c = ⊤
  · rw [if_pos h, if_pos ⟨by simpa using h.1, h.2⟩]; rfl
  · rw [if_neg h, if_neg (fun h' => h ⟨by simpa using h'.1, h'.2⟩)]; rfl

theorem Sim.ends {a : StE S C} {b : St Q C} (h : Sim K f a b) {r : Res (List S × C)} (he : EndsE K P a r) :
    Ends P' b (mapOut f r) := by
  cases he with
  | empty h1 => exact .empty (by rw [h.queue, h1]; rfl)
  | @goal top rest _ hp hb hg hx =>
    refine .goal (top := mapElem f top) (rest := rest.map (mapElem f)) (by rw [h.queue]; exact pop_map hp)
      (by rw [← hb]; exact sim_eb h _ _) (by rw [← hg]; exact hO.goal _) ?_
    have hm := sim_assign hK hO (fun e : C × Option S => (e.1, e.2.map f)) h.explored top.state (top.cost, top.back)
    cases hx with
    | notFound h1 => exact .notFound (by exact (hm _).trans (by rw [h1]; rfl))
    | @found c bk r h1 hc =>
      have := Extract.found (explored := upd b.explored (f top.state) (some (top.cost, top.back.map f))) (g := f top.state)
        (c := c) (b := bk.map f) ((hm _).trans (by rw [h1]; rfl)) (sim_chain hm hc)
      cases r with
      | ok l =>
        show Extract _ _ (mapOut f (mkResult (top.state :: l).reverse c))
        rw [← mkResult_map]
        simpa [mapElem] using this
      | throw e => exact this
      | ub => exact this
  | throws hp hb hg hk =>
    exact .throws (by rw [h.queue]; exact pop_map hp) (by rw [← hb]; exact sim_eb h _ _) (by rw [← hg]; exact hO.goal _)
      (by show P'.expand (f _) = _; rw [hO.expand, hk]; rfl)
  | ub hp hb hg hk =>
    exact .ub (by rw [h.queue]; exact pop_map hp) (by rw [← hb]; exact sim_eb h _ _) (by rw [← hg]; exact hO.goal _)
      (by show P'.expand (f _) = _; rw [hO.expand, hk]; rfl)

omit hK in
theorem bestStart_map (starts : List (S × C)) :
    bestStart P'.goal (starts.map fun x => (f x.1, x.2)) = (bestStart P.goal starts).map fun x => (f x.1, x.2) := by
  unfold bestStart
  have gen : ∀ (l : List (S × C)) (acc : Option (S × C)),
      (l.map fun x => (f x.1, x.2)).foldl (bestStep P'.goal) (acc.map fun x => (f x.1, x.2)) =
        (l.foldl (bestStep P.goal) acc).map fun x => (f x.1, x.2) := by
    intro l
    induction l with
    | nil => intro acc; rfl
    | cons x l ih =>
      intro acc
      simp only [List.map_cons, List.foldl_cons]
      rw [← ih]
      congr 1
      unfold bestStep
      simp only [hO.goal]
      have : bestCost (acc.map fun x => (f x.1, x.2)) = bestCost acc := by cases acc <;> rfl
      rw [this]
      split
      · split <;> rfl
      · rfl
  exact gen starts none

theorem sim_init (starts : List (S × C)) : Sim K f (initE K P starts) (init P' (starts.map fun x => (f x.1, x.2))) :=
  Sim.starts hK hO (a := ⟨[], [], []⟩) (b := ⟨[], fun _ => none, fun _ => none⟩) ⟨rfl, fun k => rfl, fun k => rfl, List.Pairwise.nil⟩ starts

theorem run_on_classes {starts : List (S × C)} {r : Res (List S × C)} (h : AstarRunE K P starts r) :
    AstarRun P' (starts.map fun x => (f x.1, x.2)) (mapOut f r) := by
  cases h with
  | noStarts h => subst h; exact .noStarts rfl
  | @early s hs h =>
    rw [← mkResult_map]
    exact AstarRun.early (s := (f s.1, s.2)) (by simpa using hs) (by rw [bestStart_map hO, h]; rfl)
  | search hs h hrun he =>
    obtain ⟨b', s, r⟩ := (sim_init hK hO starts).steps hK hO hrun
    exact .search (by simpa using hs) (by rw [bestStart_map hO, h]; rfl) s (r.ends hK hO he)

end classes

end CRU.Astar
