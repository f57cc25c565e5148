import Verif.GraphSearch.CallbackProps
/-
  C114: the theorems.
-/
namespace CRU.GraphSearch.Callbacks
open CRU.Graph CRU.Astar
open CRU.Astar.Callbacks (Fail ofRes dups plain plainSt covered_plain mkResult_cases)
set_option linter.unusedSectionVars false

variable {V C ε : Type} [LinearOrder C] [Add C] [Zero C] [OrderTop C] [CostLaws C]

/-- The task of the first overload. -/
def task1 (get : Int → Res (Node V C)) (F : Fns C ε) (starts : List (Int × C)) : Task V C ε := ⟨get, F, true, [], starts⟩

/-- The task of the second overload: the starts cost 0. -/
def task2 (get : Int → Res (Node V C)) (F : Fns C ε) (starts goals : List Int) : Task V C ε := ⟨get, F, false, goals, starts.map fun i => (i, 0)⟩

/-- C114, first overload: whatever state the functions keep and whatever they throw, the calls are a right sequence (`History`), and the search
ends in one of the ways of `Ending`. -/
theorem C114_search {get : Int → Res (Node V C)} {F : Fns C ε} {starts : List (Int × C)} (hN : Nonneg (task1 get F starts)) (limit : Bool)
    {r : Except (Fail ε) (List Int × C)} {h : Hist C ε} (hr : AstarRun (world1 get F limit) starts r h) :
    History (task1 get F starts) h ∧ Ending (task1 get F starts) h r :=
  run_right (T := task1 get F starts) (fits1 get F starts limit) hN hr

/-! ### Linked graphs -/

theorem edge_inRange {g : Graph V C} {size : Int} {get : Int → Res (Node V C)} (hG : GraphLike g size get) {T : Task V C ε} (hT : T.get = get)
    {s : Int} {e : Edge C} (he : EdgeOf T s e) : e.src = s ∧ (0 ≤ s ∧ s < size) ∧ (0 ≤ e.dst ∧ e.dst < size) := by
  obtain ⟨n, h1, h2⟩ := he
  rw [hT] at h1
  by_cases hs : 0 ≤ s ∧ s < size
  · have hlen : size = g.length := hG.access.1
    have hlt : s.toNat < g.length := by omega
    have hget := hG.access.2 s.toNat _ (List.getElem?_eq_getElem hlt)
    rw [Int.toNat_of_nonneg hs.1] at hget
    rw [hget] at h1
    cases h1
    obtain ⟨h3, j, m, h4, _, h5, _⟩ := (hG.link s.toNat _ (List.getElem?_eq_getElem hlt)).2 e h2
    have hj : j < g.length := by
      by_contra hc
      rw [List.getElem?_eq_none (not_lt.mp hc)] at h5
      cases h5
    exact ⟨by rw [h3]; omega, hs, by omega⟩
  · rw [hG.outside s hs] at h1; cases h1

theorem known_inRange {g : Graph V C} {size : Int} {get : Int → Res (Node V C)} (hG : GraphLike g size get) {T : Task V C ε} (hT : T.get = get)
    (hs : ∀ x ∈ T.starts, 0 ≤ x.1 ∧ x.1 < size) {h : Hist C ε} {i : Int} (hk : Known T h i) : 0 ≤ i ∧ i < size := by
  rcases hk with ⟨c, hk⟩ | ⟨p, w, e, h1, rfl, _⟩
  · exact hs _ hk
  · exact (edge_inRange hG hT h1).2.2

theorem get_inRange {g : Graph V C} {size : Int} {get : Int → Res (Node V C)} (hG : GraphLike g size get) {i : Int} (hi : 0 ≤ i ∧ i < size) :
    ∃ n, get i = .ok n := by
  have hlen : size = g.length := hG.access.1
  have hlt : i.toNat < g.length := by omega
  have hget := hG.access.2 i.toNat _ (List.getElem?_eq_getElem hlt)
  rw [Int.toNat_of_nonneg hi.1] at hget
  exact ⟨_, hget⟩

theorem index_all {size : Int} {l : List Int} (h : (l.any fun i => !indexInRange size i) = false) : ∀ i ∈ l, 0 ≤ i ∧ i < size := by
  rw [List.any_eq_false] at h
  intro i hi
  have := h i hi
  unfold indexInRange at this
  simpa using this

theorem starts_inRange {size : Int} {starts : List Int} (h : ∀ i ∈ starts, 0 ≤ i ∧ i < size) :
    ∀ x ∈ starts.map (fun i => (i, (0 : C))), 0 ≤ x.1 ∧ x.1 < size := by
  intro x hx
  obtain ⟨i, hi, rfl⟩ := List.mem_map.mp hx
  exact h i hi

/-- C114, second overload: in a correctly linked graph a search either refuses an index that is not in the graph, before any call, or its calls are
a right sequence and it ends as `Ending` says; the only exceptions are those of the user's functions and `std::invalid_argument`. -/
theorem C114_lazy {g : Graph V C} {size : Int} {get : Int → Res (Node V C)} (hG : GraphLike g size get) {F : Fns C ε} {starts goals : List Int}
    (hN : Nonneg (task2 get F starts goals)) (limit : Bool) {r : Except (Fail ε) (List Int × C)} {h : Hist C ε}
    (hr : LazyCalls size get starts goals F limit r h) :
    (r = .error (.lib .invalidArgument) ∧ h = [] ∧ ∃ i ∈ starts ++ goals, ¬ (0 ≤ i ∧ i < size)) ∨
    ((∀ i ∈ starts ++ goals, 0 ≤ i ∧ i < size) ∧ History (task2 get F starts goals) h ∧ Ending (task2 get F starts goals) h r ∧
      ∀ x, r = .error x → (∃ y, x = .user y) ∨ x = .lib .invalidArgument) := by
  cases hr with
  | badIndex hb =>
    left
    refine ⟨rfl, rfl, ?_⟩
    simp only [Bool.or_eq_true, List.any_eq_true] at hb
    rcases hb with ⟨i, h1, h2⟩ | ⟨i, h1, h2⟩
    · exact ⟨i, by simp [h1], by unfold indexInRange at h2; simp at h2; omega⟩
    · exact ⟨i, by simp [h1], by unfold indexInRange at h2; simp at h2; omega⟩
  | run hb hr =>
    right
    rw [Bool.or_eq_false_iff] at hb
    have hs := index_all hb.1
    obtain ⟨h1, h2⟩ := run_right (T := task2 get F starts goals) (fits2 get goals F _ limit) hN hr
    refine ⟨?_, h1, h2, ?_⟩
    · intro i hi
      rcases List.mem_append.mp hi with hi | hi
      · exact hs i hi
      · exact index_all hb.2 i hi
    · intro x hx
      subst hx
      cases h2 with
      | thrown => exact .inl ⟨_, rfl⟩
      | noStarts => exact .inr rfl
      | infinite => exact .inr rfl
      | noNode hc hx =>
        obtain ⟨i, k1, _, k3⟩ := hx
        obtain ⟨n, hn⟩ := get_inRange hG (known_inRange hG (T := task2 get F starts goals) rfl (starts_inRange hs) k1)
        have : (task2 get F starts goals).get i = .ok n := hn
        rw [this] at k3
        cases k3

/-- C114, third overload and `PerformAstarSearch`: every edge and every node for which the second overload calls its functions is in the graph, so
the values of the nodes can be read. -/
theorem C114_values {g : Graph V C} {size : Int} {get : Int → Res (Node V C)} (hG : GraphLike g size get) {F : Fns C ε} {starts goals : List Int}
    (hN : Nonneg (task2 get F starts goals)) (limit : Bool) {r : Except (Fail ε) (List Int × C)} {h : Hist C ε}
    (hr : LazyCalls size get starts goals F limit r h) :
    (∀ e a, Event.valid e a ∈ h → (∃ n, get e.src = .ok n) ∧ ∃ n, get e.dst = .ok n) ∧
    (∀ e a, Event.dist e a ∈ h → (∃ n, get e.src = .ok n) ∧ ∃ n, get e.dst = .ok n) ∧
    (∀ i t a, Event.heurTo i t a ∈ h → (∃ n, get i = .ok n) ∧ ∃ n, get t = .ok n) := by
  rcases C114_lazy hG hN limit hr with ⟨_, rfl, _⟩ | ⟨h1, h2, _, _⟩
  · simp
  · have hs : ∀ x ∈ (task2 get F starts goals).starts, 0 ≤ x.1 ∧ x.1 < size := starts_inRange fun i hi => h1 i (by simp [hi])
    have hv : ∀ e a, Event.valid e a ∈ h → (∃ n, get e.src = .ok n) ∧ ∃ n, get e.dst = .ok n := by
      intro e a he
      obtain ⟨pre, post, rfl⟩ := List.append_of_mem he
      obtain ⟨s, k1, _⟩ := (h2 pre _ post rfl).allowed
      obtain ⟨k2, k3, k4⟩ := edge_inRange hG rfl k1
      exact ⟨get_inRange hG (k2.symm ▸ k3), get_inRange hG k4⟩
    refine ⟨hv, ?_, ?_⟩
    · intro e a he
      obtain ⟨pre, post, rfl⟩ := List.append_of_mem he
      obtain ⟨pre', rfl⟩ := (h2 pre _ post rfl).allowed
      exact hv e (.ok true) (by simp)
    · intro i t a he
      obtain ⟨pre, post, rfl⟩ := List.append_of_mem he
      have k := h2 pre _ post rfl
      have ht : t ∈ goals := k.answer.2.1
      exact ⟨get_inRange hG (known_inRange hG rfl hs k.allowed), get_inRange hG (h1 t (by simp [ht]))⟩

/-! ### Goals among the starts -/

/-- The calls of the loop over the starts: one goal check per start. -/
def checks (l : List (Int × C)) (as : List Bool) : Hist C ε := List.zipWith (fun s a => Event.goal s.1 (.ok a)) l as

theorem bind_ok {α β : Type} {m : Run C ε α} {f : α → Run C ε β} {h h1 : Hist C ε} {a : α} (hm : m h = (.ok a, h1)) :
    (m >>= f) h = f a h1 := by
  change seq m f h = _
  unfold seq; rw [hm]

theorem bind_err {α β : Type} {m : Run C ε α} {f : α → Run C ε β} {h h1 : Hist C ε} {x : Fail ε} (hm : m h = (.error x, h1)) :
    (m >>= f) h = (.error x, h1) := by
  change seq m f h = _
  unfold seq; rw [hm]

theorem bestStarts_calls (get : Int → Res (Node V C)) (F : Fns C ε) (limit : Bool) (l : List (Int × C)) (best : Option (Int × C)) (h : Hist C ε) :
    (∃ x h', bestStarts (world1 get F limit) best l h = (.error (.user x), h') ∧ h <+: h' ∧ h'.length ≤ h.length + l.length) ∨
    ∃ b as, bestStarts (world1 get F limit) best l h = (.ok b, h ++ checks l as) ∧ as.length = l.length ∧ bestCost b ≤ bestCost best ∧
      (∀ (i : Nat) (x : Int × C), l[i]? = some x → as[i]? = some true → bestCost b ≤ x.2) ∧
      (b = best ∨ ∃ x ∈ l, b = some x ∧ x.2 < ⊤) := by
  induction l generalizing best h with
  | nil => exact .inr ⟨best, [], by simp [bestStarts, ret, checks], rfl, le_refl _, by simp, .inl rfl⟩
  | cons s l ih =>
    cases hg : F.goal h s.1 with
    | error x =>
      refine .inl ⟨x, h ++ [.goal s.1 (.error x)], ?_, List.prefix_append _ _, by simp⟩
      unfold bestStarts
      refine bind_err ?_
      change ask (fun h => F.goal h s.1) (Event.goal s.1) h = _
      unfold ask; dsimp only; rw [hg]
    | ok g =>
      have e0 : ∀ b, bestStarts (world1 get F limit) b (s :: l) h =
          bestStarts (world1 get F limit) (if g then (if s.2 < bestCost b then some s else b) else b) l (h ++ [.goal s.1 (.ok g)]) := by
        intro b
        rw [show bestStarts (world1 get F limit) b (s :: l) = _ from bestStarts.eq_2 ..]
        refine bind_ok ?_
        change ask (fun h => F.goal h s.1) (Event.goal s.1) h = _
        unfold ask; dsimp only; rw [hg]
      rw [e0]
      have hstep : bestCost (if g = true then if s.2 < bestCost best then some s else best else best) ≤ bestCost best := by
        split
        · split
          · rename_i h2; exact le_of_lt h2
          · exact le_refl _
        · exact le_refl _
      rcases ih (if g then (if s.2 < bestCost best then some s else best) else best) (h ++ [.goal s.1 (.ok g)]) with ⟨x, h', h1, h2, h3⟩ | ⟨b, as, h1, h2, k3, k4, k5⟩
      · refine .inl ⟨x, h', h1, (List.prefix_append _ _).trans h2, ?_⟩
        simp only [List.length_append, List.length_cons, List.length_nil] at h3 ⊢
        omega
      · refine .inr ⟨b, g :: as, by rw [h1]; simp [checks], by simp [h2], le_trans k3 hstep, ?_, ?_⟩
        · intro i x hx ha
          cases i with
          | zero =>
            simp only [List.getElem?_cons_zero, Option.some.injEq] at hx ha
            subst hx ha
            rw [if_pos rfl] at k3
            split at k3
            · exact k3
            · rename_i h2; exact le_trans k3 (not_lt.mp h2)
          | succ i => exact k4 i x (by simpa using hx) (by simpa using ha)
        · rcases k5 with k5 | ⟨x, h2, h3⟩
          · split at k5
            · split at k5
              · rename_i h2
                exact .inr ⟨s, by simp, k5, lt_of_lt_of_le h2 le_top⟩
              · exact .inl k5
            · exact .inl k5
          · exact .inr ⟨x, by simp [h2], h3⟩

/-- C114, first overload, starts with indices that are not negative: if the goal check accepts a start of finite cost, the search makes no other calls
than the goal checks of the starts and gives the cheapest start that was accepted (unless the goal check throws for a later start). -/
theorem C114_goal_start {get : Int → Res (Node V C)} {F : Fns C ε} {starts : List (Int × C)} (hN : Nonneg (task1 get F starts))
    (hpos : ∀ x ∈ starts, 0 ≤ x.1) (limit : Bool) {i : Nat} {s : Int} {c : C} (hi : starts[i]? = some (s, c)) (hfin : c < ⊤)
    {r : Except (Fail ε) (List Int × C)} {h : Hist C ε} (hr : AstarRun (world1 get F limit) starts r h) (hg : h[i]? = some (.goal s (.ok true))) :
    (∃ x, r = .error (.user x) ∧ h.length ≤ starts.length) ∨ ∃ y ∈ starts, r = .ok ([y.1], y.2) ∧ y.2 ≤ c ∧ h.length = starts.length := by
  have hF : Fits (task1 get F starts) (world1 get F limit) := fits1 get F starts limit
  have hbest := bestStarts_does hF starts (fun _ h => h) none (h := []) calm_nil history_nil
  have hlt : i < starts.length := by
    by_contra hc
    rw [List.getElem?_eq_none (not_lt.mp hc)] at hi
    cases hi
  rcases bestStarts_calls get F limit starts none [] with ⟨x, h', h1, h2, h3⟩ | ⟨b, as, h1, h2, _, k4, k5⟩
  · have hx : ∀ {r' : Except (Fail ε) (Option (Int × C))} {h0 : Hist C ε}, bestStarts (world1 get F limit) none starts [] = (r', h0) →
        r' = .error (.user x) ∧ h0 = h' := by
      intro r' h0 he
      rw [h1] at he
      cases he
      exact ⟨rfl, rfl⟩
    cases hr with
    | noStarts hs => subst hs; simp at hlt
    | checkThrows hs hb =>
      obtain ⟨e1, rfl⟩ := hx hb
      cases e1
      exact .inl ⟨x, rfl, by simpa using h3⟩
    | early hs hb => cases (hx hb).1
    | initThrows hs hb => cases (hx hb).1
    | search hs hb => cases (hx hb).1
  · rw [List.nil_append] at h1
    have key : (checks starts as : Hist C ε) <+: h → as[i]? = some true := by
      rintro ⟨t, rfl⟩
      have hlen : i < (checks starts as : Hist C ε).length := by unfold checks; rw [List.length_zipWith]; omega
      rw [List.getElem?_append_left hlen] at hg
      unfold checks at hg
      rw [List.getElem?_zipWith, hi] at hg
      cases ha : as[i]? with
      | none => rw [ha] at hg; cases hg
      | some a =>
        rw [ha] at hg
        simp only [Option.some.injEq, Event.goal.injEq, true_and, Except.ok.injEq] at hg
        rw [hg]
    have hx : ∀ {r' : Except (Fail ε) (Option (Int × C))} {h0 : Hist C ε}, bestStarts (world1 get F limit) none starts [] = (r', h0) →
        r' = .ok b ∧ h0 = checks starts as := by
      intro r' h0 he
      rw [h1] at he
      cases he
      exact ⟨rfl, rfl⟩
    have late : (checks starts as : Hist C ε) <+: h → noEarly b → False := by
      intro hp hn
      have hle := k4 i _ hi (key hp)
      rcases k5 with rfl | ⟨x, hxm, rfl, _⟩
      · exact absurd hfin (not_lt.mpr hle)
      · exact hn x rfl (hpos x hxm)
    rw [h1] at hbest
    obtain ⟨_, c2, c3, c4, _⟩ := hbest
    cases hr with
    | noStarts hs => subst hs; simp at hlt
    | checkThrows hs hb => cases (hx hb).1
    | @early y _ hs hb h0 =>
      obtain ⟨e1, rfl⟩ := hx hb
      cases e1
      right
      rcases k5 with k5 | ⟨x, hxs, k5, k6⟩
      · cases k5
      · cases k5
        refine ⟨y, hxs, ?_, k4 i _ hi (key (List.prefix_refl _)), ?_⟩
        · rcases mkResult_cases [y.1] y.2 with ⟨_, e2⟩ | ⟨e1, _⟩
          · exact absurd e2 k6.ne
          · rw [e1]; rfl
        · simp [checks, h2]
    | initThrows hs hb hn hi' =>
      obtain ⟨e1, rfl⟩ := hx hb
      cases e1
      have hgood := init_good hF c2 c3 c4
      change Does _ _ (pushStarts _ _ starts _) _ _ at hgood
      rw [hi'] at hgood
      exact (late (hgood.failed (fun _ _ h => h.elim)).1 hn).elim
    | search hs hb hn hi' hrun he =>
      obtain ⟨e1, rfl⟩ := hx hb
      cases e1
      have hgood := init_good hF c2 c3 c4
      change Does _ _ (pushStarts _ _ starts _) _ _ at hgood
      rw [hi'] at hgood
      obtain ⟨p1, _, _, hgood, _⟩ := hgood
      obtain ⟨hg2, p2⟩ := hgood.steps hF hN hrun
      exact (late (p1.trans (p2.trans (ends_right hF hN hg2 he).1)) hn).elim

/-! ### Termination -/

/-- C114, first overload: if the nodes that the edges of the graph can lead to from the starts are finitely many, the search ends, with every
tie-breaking, even if validity and distances are different at every call. -/
theorem C114_ends {get : Int → Res (Node V C)} {F : Fns C ε} {starts : List (Int × C)} (hN : Nonneg (task1 get F starts)) (limit : Bool)
    {N : List Int} (hs : ∀ x ∈ starts, x.1 ∈ N) (hcl : ∀ s ∈ N, ∀ n, get s = .ok n → ∀ e ∈ n.outs, e.dst ∈ N) :
    (∃ r h, AstarRun (world1 get F limit) starts r h) ∧
    ¬ ∃ f : Nat → St Int C × Hist C ε, (∃ best h, bestStarts (world1 get F limit) none starts [] = (.ok best, h) ∧ noEarly best ∧
      pushStarts (world1 get F limit) ⟨[], fun _ => none, fun _ => none⟩ starts h = (.ok (f 0).1, (f 0).2)) ∧
      ∀ n, Step (world1 get F limit) (f n) (f (n + 1)) :=
  run_ends (T := task1 get F starts) (fits1 get F starts limit) hN (N := N) ⟨hs, fun s h1 e ⟨n, h2, h3⟩ => hcl s h1 n h2 e h3⟩

/-- C114, second overload: in a correctly linked graph the search always ends, even if validity and distances are different at every call. -/
theorem C114_lazy_ends {g : Graph V C} {size : Int} {get : Int → Res (Node V C)} (hG : GraphLike g size get) {F : Fns C ε} {starts goals : List Int}
    (hN : Nonneg (task2 get F starts goals)) (limit : Bool) :
    (∃ r h, LazyCalls size get starts goals F limit r h) ∧
    ¬ ∃ f : Nat → St Int C × Hist C ε, (∀ i ∈ starts, 0 ≤ i ∧ i < size) ∧ (∃ best h, bestStarts (world2 get goals F limit) none
        (starts.map fun i => (i, 0)) [] = (.ok best, h) ∧ noEarly best ∧
      pushStarts (world2 get goals F limit) ⟨[], fun _ => none, fun _ => none⟩ (starts.map fun i => (i, 0)) h = (.ok (f 0).1, (f 0).2)) ∧
      ∀ n, Step (world2 get goals F limit) (f n) (f (n + 1)) := by
  have key : (∀ i ∈ starts, 0 ≤ i ∧ i < size) → Closed (task2 get F starts goals) ((List.range size.toNat).map fun i : Nat => (i : Int)) := by
    intro hs
    have hmem : ∀ i : Int, 0 ≤ i ∧ i < size → i ∈ (List.range size.toNat).map fun i : Nat => (i : Int) := by
      intro i hi
      have h1 : (i.toNat : Int) = i := Int.toNat_of_nonneg hi.1
      have h2 : i.toNat < size.toNat := by omega
      exact List.mem_map.mpr ⟨i.toNat, List.mem_range.mpr h2, h1⟩
    refine ⟨fun x hx => hmem _ (starts_inRange hs x hx), fun s _ e he => hmem _ (edge_inRange hG rfl he).2.2⟩
  constructor
  · cases hb : starts.any (fun i => !indexInRange size i) || goals.any (fun i => !indexInRange size i) with
    | true => exact ⟨_, _, .badIndex hb⟩
    | false =>
      have hs := index_all (Bool.or_eq_false_iff.mp hb).1
      obtain ⟨⟨r, h, hr⟩, _⟩ := run_ends (T := task2 get F starts goals) (fits2 get goals F _ limit) hN (key hs)
      exact ⟨r, h, .run hb hr⟩
  · rintro ⟨f, hs, h1, h2⟩
    exact (run_ends (T := task2 get F starts goals) (fits2 get goals F _ limit) hN (key hs)).2 ⟨f, h1, h2⟩

/-! ### Functions without state and exceptions -/

/-- The functions answer like the pure ones of `P`, and never throw. -/
structure Pure (W : World V C ε) (goal : Int → Bool) (valid : Edge C → Bool) (dist : Edge C → C) (heur : Int → C) : Prop where
  goal : ∀ i h, ∃ h', W.goal i h = (.ok (goal i), h')
  heur : ∀ i h, ∃ h', W.heur i h = (.ok (heur i), h')
  valid : ∀ h e, W.valid h e = .ok (valid e)
  dist : ∀ h e, W.dist h e = .ok (dist e)

section
variable {W : World V C ε} {goal : Int → Bool} {valid : Edge C → Bool} {dist : Edge C → C} {heur : Int → C}

/-- The problem of the model without calls. -/
def prob (W : World V C ε) (goal : Int → Bool) (valid : Edge C → Bool) (dist : Edge C → C) (heur : Int → C) : Problem Int C :=
  graphProblem W.get goal valid dist heur W.limit

theorem bestStarts_pure (hP : Pure W goal valid dist heur) (l : List (Int × C)) (best : Option (Int × C)) (h : Hist C ε) :
    ∃ h', bestStarts W best l h = (.ok (l.foldl (bestStep goal) best), h') := by
  induction l generalizing best h with
  | nil => exact ⟨h, rfl⟩
  | cons s l ih =>
    obtain ⟨h1, hg⟩ := hP.goal s.1 h
    unfold bestStarts
    rw [bind_ok hg]
    exact ih _ _

theorem pushStarts_pure (hP : Pure W goal valid dist heur) (l : List (Int × C)) (st : St Int C) (h : Hist C ε) :
    ∃ h', pushStarts W st l h = (.ok (l.foldl (pushStart (prob W goal valid dist heur)) st), h') := by
  induction l generalizing st h with
  | nil => exact ⟨h, rfl⟩
  | cons s l ih =>
    unfold pushStarts
    rw [List.foldl_cons]
    unfold pushStart
    rw [show queueBetter (dups W.limit) st.members s.1 s.2 = queueBetter (prob W goal valid dist heur) st.members s.1 s.2 from rfl]
    split
    · exact ih _ _
    · obtain ⟨h1, hh⟩ := hP.heur s.1 h
      rw [bind_ok hh]
      exact ih _ _

theorem pushEdges_pure (hP : Pure W goal valid dist heur) (s : Int) (c : C) (l : List (Edge C)) (st : St Int C) (h : Hist C ε) :
    ∃ h', pushEdges W s c st l h =
      (.ok (((l.filter valid).map fun e => (e.dst, dist e)).foldl (pushKid (prob W goal valid dist heur) s c) st), h') := by
  induction l generalizing st h with
  | nil => exact ⟨h, rfl⟩
  | cons e l ih =>
    unfold pushEdges
    rw [bind_ok (show ask (fun h => W.valid h e) (Event.valid e) h = (.ok (valid e), h ++ [.valid e (.ok (valid e))]) by
      unfold ask; dsimp only; rw [hP.valid])]
    cases hv : valid e with
    | false =>
      rw [List.filter_cons_of_neg (by simp [hv])]
      exact ih _ _
    | true =>
      rw [List.filter_cons_of_pos hv, List.map_cons, List.foldl_cons, if_pos rfl,
        bind_ok (show ask (fun h => W.dist h e) (Event.dist e) (h ++ [.valid e (.ok true)]) = (.ok (dist e), h ++ [.valid e (.ok true)] ++ [.dist e (.ok (dist e))]) by
          unfold ask; dsimp only; rw [hP.dist])]
      rw [show pushKid (prob W goal valid dist heur) s c st (e.dst, dist e) = if exploredBetter st.explored e.dst (c + dist e) ||
        queueBetter (dups W.limit) st.members e.dst (c + dist e) then st else push (dups W.limit) st ⟨e.dst, some s, c + dist e, c + dist e + heur e.dst⟩ from rfl]
      split
      · exact ih _ _
      · obtain ⟨h1, hh⟩ := hP.heur e.dst (h ++ [.valid e (.ok true)] ++ [.dist e (.ok (dist e))])
        rw [bind_ok hh]
        exact ih _ _

theorem expandTop_pure (hP : Pure W goal valid dist heur) (top : Elem Int C) (st : St Int C) (h : Hist C ε) :
    ∃ h', expandTop W top st h = (match (prob W goal valid dist heur).expand top.state with
      | .ok kids => .ok (kids.foldl (pushKid (prob W goal valid dist heur) top.state top.cost) st)
      | .throw x => .error (.lib x)
      | .ub => .error .ub, h') := by
  have hx : (prob W goal valid dist heur).expand top.state = graphExpand W.get valid dist top.state := rfl
  rw [hx]
  unfold expandTop graphExpand
  cases hn : W.get top.state with
  | ok n =>
    obtain ⟨h1, he⟩ := pushEdges_pure hP top.state top.cost n.outs st h
    exact ⟨h1, by rw [bind_ok (show (fun h => (ofRes (Res.ok n), h) : Run C ε (Node V C)) h = (.ok n, h) from rfl), he]; rfl⟩
  | throw x => exact ⟨h, rfl⟩
  | ub => exact ⟨h, rfl⟩

theorem step_pure (hP : Pure W goal valid dist heur) {a b : St Int C × Hist C ε} (hs : Step W a b) :
    CRU.Astar.Step (prob W goal valid dist heur) a.1 b.1 := by
  cases hs with
  | skip hp hb => exact .skip hp hb
  | @expand st st' h h1 h2 top rest hp hb hg hk =>
    obtain ⟨h', hg'⟩ := hP.goal top.state h
    rw [hg'] at hg
    simp only [Prod.mk.injEq, Except.ok.injEq] at hg
    obtain ⟨h'', he⟩ := expandTop_pure hP top (accept W st top rest) h1
    rw [he] at hk
    cases hx : (prob W goal valid dist heur).expand top.state with
    | ok kids =>
      rw [hx] at hk
      simp only [Prod.mk.injEq, Except.ok.injEq] at hk
      rw [← hk.1]
      exact .expand hp hb hg.1 hx
    | throw x => rw [hx] at hk; cases hk
    | ub => rw [hx] at hk; cases hk

theorem pure_step (hP : Pure W goal valid dist heur) {a b : St Int C} (hs : CRU.Astar.Step (prob W goal valid dist heur) a b) (h : Hist C ε) :
    ∃ h', Step W (a, h) (b, h') := by
  cases hs with
  | skip hp hb => exact ⟨h, .skip hp hb⟩
  | @expand top rest kids hp hb hg hk =>
    obtain ⟨h1, hg'⟩ := hP.goal top.state h
    obtain ⟨h', he⟩ := expandTop_pure hP top (accept W a top rest) h1
    rw [hk] at he
    refine ⟨h', .expand hp hb ?_ he⟩
    rw [hg', show goal top.state = false from hg]

theorem steps_pure (hP : Pure W goal valid dist heur) {a b : St Int C × Hist C ε} (hs : Steps W a b) :
    CRU.Astar.Steps (prob W goal valid dist heur) a.1 b.1 := by
  induction hs with
  | refl => exact .refl _
  | step h1 _ ih => exact .step (step_pure hP h1) ih

theorem pure_steps (hP : Pure W goal valid dist heur) {a b : St Int C} (hs : CRU.Astar.Steps (prob W goal valid dist heur) a b) (h : Hist C ε) :
    ∃ h', Steps W (a, h) (b, h') := by
  induction hs generalizing h with
  | refl => exact ⟨h, .refl _⟩
  | step h1 _ ih =>
    obtain ⟨h2, h3⟩ := pure_step hP h1 h
    obtain ⟨h4, h5⟩ := ih h2
    exact ⟨h4, .step h3 h5⟩

theorem ends_pure (hP : Pure W goal valid dist heur) {a : St Int C × Hist C ε} {r : Except (Fail ε) (List Int × C)} {h : Hist C ε}
    (he : Ends W a r h) : ∃ r', r = ofRes r' ∧ CRU.Astar.Ends (prob W goal valid dist heur) a.1 r' := by
  cases he with
  | empty hq => exact ⟨.ok ([], ⊤), rfl, .empty hq⟩
  | @goalThrows st h h1 x top rest hp hb hg =>
    obtain ⟨h', hg'⟩ := hP.goal top.state h
    rw [hg'] at hg; cases hg
  | @goal st h h1 r top rest hp hb hg hx =>
    obtain ⟨h', hg'⟩ := hP.goal top.state h
    rw [hg'] at hg
    simp only [Prod.mk.injEq, Except.ok.injEq] at hg
    exact ⟨r, rfl, .goal hp hb hg.1 hx⟩
  | @edgesThrow st h h1 h2 x top rest hp hb hg hk =>
    obtain ⟨h', hg'⟩ := hP.goal top.state h
    rw [hg'] at hg
    simp only [Prod.mk.injEq, Except.ok.injEq] at hg
    obtain ⟨h'', he⟩ := expandTop_pure hP top (accept W st top rest) h1
    rw [he] at hk
    cases hx : (prob W goal valid dist heur).expand top.state with
    | ok kids => rw [hx] at hk; cases hk
    | throw y =>
      rw [hx] at hk
      simp only [Prod.mk.injEq, Except.error.injEq] at hk
      exact ⟨.throw y, by rw [← hk.1]; rfl, .throws hp hb hg.1 hx⟩
    | ub =>
      rw [hx] at hk
      simp only [Prod.mk.injEq, Except.error.injEq] at hk
      exact ⟨.ub, by rw [← hk.1]; rfl, .ub hp hb hg.1 hx⟩

theorem pure_ends (hP : Pure W goal valid dist heur) {a : St Int C} {r : Res (List Int × C)} (he : CRU.Astar.Ends (prob W goal valid dist heur) a r)
    (h : Hist C ε) : ∃ h', Ends W (a, h) (ofRes r) h' := by
  cases he with
  | empty hq => exact ⟨h, .empty hq⟩
  | @goal top rest _ hp hb hg hx =>
    obtain ⟨h1, hg'⟩ := hP.goal top.state h
    exact ⟨_, .goal hp hb (by rw [hg', show goal top.state = true from hg]) hx⟩
  | @throws top rest e hp hb hg hk =>
    obtain ⟨h1, hg'⟩ := hP.goal top.state h
    obtain ⟨h', he⟩ := expandTop_pure hP top (accept W a top rest) h1
    rw [hk] at he
    exact ⟨h', .edgesThrow hp hb (by rw [hg', show goal top.state = false from hg]) he⟩
  | @ub top rest hp hb hg hk =>
    obtain ⟨h1, hg'⟩ := hP.goal top.state h
    obtain ⟨h', he⟩ := expandTop_pure hP top (accept W a top rest) h1
    rw [hk] at he
    exact ⟨h', .edgesThrow hp hb (by rw [hg', show goal top.state = false from hg]) he⟩

theorem run_pure (hP : Pure W goal valid dist heur) (starts : List (Int × C)) (r : Except (Fail ε) (List Int × C)) :
    (∃ h, AstarRun W starts r h) ↔ ∃ r', r = ofRes r' ∧ GraphAstarRun (prob W goal valid dist heur) starts r' := by
  obtain ⟨hb, hbest⟩ := bestStarts_pure hP starts none []
  constructor
  · rintro ⟨h, hr⟩
    cases hr with
    | noStarts hs => exact ⟨.throw .invalidArgument, rfl, .noStarts hs⟩
    | checkThrows hs hb' => rw [hbest] at hb'; cases hb'
    | @early s h hs hb' h0 =>
      rw [hbest] at hb'
      simp only [Prod.mk.injEq, Except.ok.injEq] at hb'
      exact ⟨_, rfl, .early hs hb'.1 h0⟩
    | @initThrows x h0 h1 best hs hb' _ hi =>
      obtain ⟨h2, hp⟩ := pushStarts_pure hP starts ⟨[], fun _ => none, fun _ => none⟩ h0
      rw [hp] at hi; cases hi
    | @search st st' h0 h1 h2 h3 best r hs hb' hn hi hrun he =>
      rw [hbest] at hb'
      simp only [Prod.mk.injEq, Except.ok.injEq] at hb'
      obtain ⟨h4, hp⟩ := pushStarts_pure hP starts ⟨[], fun _ => none, fun _ => none⟩ h0
      rw [hp] at hi
      simp only [Prod.mk.injEq, Except.ok.injEq] at hi
      obtain ⟨r', hr, he'⟩ := ends_pure hP he
      refine ⟨r', hr, .search hs (fun s hs' => hn s (by rw [← hb'.1]; exact hs')) ?_ he'⟩
      have := steps_pure hP hrun
      rw [← hi.1] at this
      exact this
  · rintro ⟨r', rfl, hr⟩
    cases hr with
    | noStarts hs => exact ⟨_, .noStarts hs⟩
    | @early s hs h h0 => exact ⟨_, .early hs (by rw [hbest, show starts.foldl (bestStep goal) none = _ from h]) h0⟩
    | search hs h hrun he =>
      obtain ⟨h2, hp⟩ := pushStarts_pure hP starts ⟨[], fun _ => none, fun _ => none⟩ hb
      obtain ⟨h3, h4⟩ := pure_steps hP hrun h2
      obtain ⟨h5, h6⟩ := pure_ends hP he h3
      exact ⟨_, .search hs hbest h hp h4 h6⟩

end

/-- Functions that depend on nothing but their arguments and do not throw. -/
def pureFns (goal : Int → Bool) (heur : Int → C) (heurTo : Int → Int → C) (valid : Edge C → Bool) (dist : Edge C → C) : Fns C ε :=
  ⟨fun _ i => .ok (goal i), fun _ i => .ok (heur i), fun _ i g => .ok (heurTo i g), fun _ e => .ok (valid e), fun _ e => .ok (dist e)⟩

/-- C114, first overload: with functions that keep no state and throw nothing the outcomes are those of C23. -/
theorem C114_as_without (get : Int → Res (Node V C)) (goal : Int → Bool) (heur : Int → C) (heurTo : Int → Int → C) (valid : Edge C → Bool)
    (dist : Edge C → C) (limit : Bool) (starts : List (Int × C)) (r : Except (Fail ε) (List Int × C)) :
    (∃ h, AstarRun (world1 get (pureFns goal heur heurTo valid dist) limit) starts r h) ↔
    ∃ r', r = ofRes r' ∧ GraphAstarRun (graphProblem get goal valid dist heur limit) starts r' :=
  run_pure ⟨fun _ _ => ⟨_, rfl⟩, fun _ _ => ⟨_, rfl⟩, fun _ _ => rfl, fun _ _ => rfl⟩ starts r

theorem bestHeur_pure (heurTo : Int → Int → C) (i : Int) (l : List Int) (best : C) (h : Hist C ε) :
    ∃ h', bestHeur (fun _ i g => .ok (heurTo i g)) i best l h = (.ok (l.foldl (fun best g => if heurTo i g < best then heurTo i g else best) best), h') := by
  induction l generalizing best h with
  | nil => exact ⟨h, rfl⟩
  | cons g l ih =>
    unfold bestHeur
    rw [bind_ok (show ask (fun _ => Except.ok (heurTo i g)) (Event.heurTo i g) h = (.ok (heurTo i g), h ++ [.heurTo i g (.ok (heurTo i g))]) from rfl)]
    exact ih _ _

/-- C114, second overload. -/
theorem C114_as_without_lazy (size : Int) (get : Int → Res (Node V C)) (goal : Int → Bool) (heur : Int → C) (heurTo : Int → Int → C)
    (valid : Edge C → Bool) (dist : Edge C → C) (limit : Bool) (starts goals : List Int) (r : Except (Fail ε) (List Int × C)) :
    (∃ h, LazyCalls size get starts goals (pureFns goal heur heurTo valid dist) limit r h) ↔
    ∃ r', r = ofRes r' ∧ LazyRun size get starts goals valid dist heurTo limit r' := by
  have hP : Pure (ε := ε) (world2 get goals (pureFns goal heur heurTo valid dist) limit) (fun i => goals.any fun g => i = g) valid dist
      (minHeuristic goals heurTo) := ⟨fun _ _ => ⟨_, rfl⟩, fun i h => bestHeur_pure heurTo i goals ⊤ h, fun _ _ => rfl, fun _ _ => rfl⟩
  constructor
  · rintro ⟨h, hr⟩
    cases hr with
    | badIndex hb => exact ⟨.throw .invalidArgument, rfl, .badIndex hb⟩
    | run hb hr =>
      obtain ⟨r', h1, h2⟩ := (run_pure hP _ r).mp ⟨h, hr⟩
      exact ⟨r', h1, .run hb h2⟩
  · rintro ⟨r', rfl, hr⟩
    cases hr with
    | badIndex hb => exact ⟨_, .badIndex hb⟩
    | run hb hr =>
      obtain ⟨h, h1⟩ := (run_pure hP _ _).mpr ⟨r', rfl, hr⟩
      exact ⟨h, .run hb h1⟩

/-! ### The hypotheses can be met -/

namespace Demo
open CRU.GraphSearch.Demo (g g_mirrored)

/-- Functions that count the calls: an edge is valid at even calls only, its distance is the number of the calls made before; the distance function
throws from call `limit` on, the goal check accepts from call `patience` on. -/
def counting (patience limit : Nat) : Fns ℕ∞ String :=
  ⟨fun h _ => .ok (decide (patience ≤ h.length)), fun _ _ => .ok 0, fun _ _ _ => .ok 0, fun h _ => .ok (decide (h.length % 2 = 0)),
    fun h _ => if limit ≤ h.length then .error "tired" else .ok h.length⟩

theorem counting_nonneg (p l : Nat) {T : Task String ℕ∞ String} (_ : T.fns = counting p l) : Nonneg T := fun _ _ _ _ _ _ => zero_le

/-- The second overload from 0 to 2: the heuristic of the start is the first call, then the validity of the edge to 1 (refused: call 1), of the edge
to 2 (accepted: call 2); the distance throws. -/
theorem tired_run : LazyCalls 4 (getNode g) [0] [2] (counting 0 3) true (.error (.user "tired"))
    [.heurTo 0 2 (.ok 0), .valid ⟨0, 1, 1, 0⟩ (.ok false), .valid ⟨0, 2, 5, 0⟩ (.ok true), .dist ⟨0, 2, 5, 0⟩ (.error "tired")] := by
  refine .run rfl (.search (by simp) rfl (by simp [noEarly]) rfl (.refl _) ?_)
  exact .edgesThrow (top := ⟨0, none, 0, 0⟩) (rest := []) ⟨List.Perm.refl _, by simp⟩ rfl rfl rfl

example := C114_lazy (graphLike_self g_mirrored.validLinkage) (counting_nonneg 0 3 rfl) true tired_run
example := C114_values (graphLike_self g_mirrored.validLinkage) (counting_nonneg 0 3 rfl) true tired_run

/-- With a patient distance function the search gives the direct edge, as its distance was 3. -/
theorem calm_run : LazyCalls 4 (getNode g) [0] [2] (counting 0 100) true (.ok ([0, 2], 0 + 3))
    [.heurTo 0 2 (.ok 0), .valid ⟨0, 1, 1, 0⟩ (.ok false), .valid ⟨0, 2, 5, 0⟩ (.ok true), .dist ⟨0, 2, 5, 0⟩ (.ok 3), .heurTo 2 2 (.ok 0)] := by
  refine .run rfl (.search (by simp) rfl (by simp [noEarly]) rfl (.step (.expand (top := ⟨0, none, 0, 0⟩) (rest := [])
    ⟨List.Perm.refl _, by simp⟩ rfl rfl rfl) (.refl _)) ?_)
  have := Ends.goal (W := world2 (getNode g) [2] (counting 0 100) true)
    (h := [.heurTo 0 2 (.ok 0), .valid ⟨0, 1, 1, 0⟩ (.ok false), .valid ⟨0, 2, 5, 0⟩ (.ok true), .dist ⟨0, 2, 5, 0⟩ (.ok 3), .heurTo 2 2 (.ok 0)])
    (st := ⟨[⟨2, some 0, 0 + 3, 0 + 3 + 0⟩], upd (upd (upd (fun _ => none) 0 (some 0)) 0 none) 2 (some (0 + 3)), upd (fun _ => none) 0 (some (0, none))⟩)
    (top := ⟨2, some 0, 0 + 3, 0 + 3 + 0⟩) (rest := []) ⟨List.Perm.refl _, by simp⟩ rfl rfl
    (Extract.found (c := 0 + 3) (b := some 0) (r := .ok [0]) rfl (.cons (c := 0) (b := none) rfl .nil))
  exact this

example := C114_lazy (graphLike_self g_mirrored.validLinkage) (counting_nonneg 0 100 rfl) true calm_run

/-- An index that is not in the graph. -/
example := C114_lazy (graphLike_self g_mirrored.validLinkage) (counting_nonneg 0 3 rfl) true
  (.badIndex (starts := [0]) (goals := [7]) rfl : LazyCalls 4 (getNode g) [0] [7] (counting 0 3) true _ _)

example := C114_lazy_ends (graphLike_self g_mirrored.validLinkage) (starts := [0, 1]) (goals := [2]) (counting_nonneg 0 3 rfl) true

/-- The first overload: the run exists by `C114_ends`. -/
example : ∃ r h, AstarRun (world1 (getNode g) (counting 7 100) false) [(0, 0)] r h ∧
    History (task1 (getNode g) (counting 7 100) [(0, 0)]) h ∧ Ending (task1 (getNode g) (counting 7 100) [(0, 0)]) h r := by
  obtain ⟨⟨r, h, hr⟩, _⟩ := C114_ends (get := getNode g) (F := counting 7 100) (starts := [(0, 0)]) (counting_nonneg 7 100 rfl) false
    (N := [0, 1, 2, 3]) (by simp) (by
      intro s hs n hn e he
      obtain ⟨_, _, h1⟩ := edge_inRange (graphLike_self g_mirrored.validLinkage) (T := task1 (getNode g) (counting 7 100) []) rfl ⟨n, hn, he⟩
      have : (g.length : Int) = 4 := rfl
      have : e.dst = 0 ∨ e.dst = 1 ∨ e.dst = 2 ∨ e.dst = 3 := by omega
      simpa using this)
  exact ⟨r, h, hr, C114_search (counting_nonneg 7 100 rfl) false hr⟩

/-- A start that is accepted: the second one, as the goal check gets patient at the second call. -/
example := C114_goal_start (get := getNode g) (F := counting 1 100) (starts := [(0, 0), (1, 4)]) (counting_nonneg 1 100 rfl) (by simp) true
  (i := 1) (s := 1) (c := 4) rfl (ENat.natCast_lt_top 4) (h := [.goal 0 (.ok false), .goal 1 (.ok true)]) (.early (s := (1, 4)) (by simp) rfl (by simp)) rfl

/-- Functions without state: C23's runs exist. -/
example : ∃ r h, LazyCalls 4 (getNode g) [0] [2] (pureFns (ε := String) (fun _ => false) (fun _ => 0) (fun _ _ => 0) (fun _ => true) fun e => e.weight) true r h := by
  obtain ⟨r, hr⟩ := (C23_terminates (graphLike_self g_mirrored.validLinkage) [0] [2] (fun _ => true) (dist := fun e => e.weight)
    (fun _ _ _ _ _ => zero_le) (fun _ _ => 0) true).1
  exact ⟨_, (C114_as_without_lazy 4 (getNode g) (fun _ => false) (fun _ => 0) (fun _ _ => 0) (fun _ => true) (fun e => e.weight) true [0] [2] _).mpr ⟨r, rfl, hr⟩⟩

end Demo

end CRU.GraphSearch.Callbacks
