import Verif.GraphSearch.Callbacks
import Verif.GraphSearch.Props
import Verif.Astar.CallbackProps
/-
  C114: specification of the calls of a graph search, and the invariant of the search loop.
-/
namespace CRU.GraphSearch.Callbacks
open CRU.Graph CRU.Astar
open CRU.Astar.Callbacks (Fail ofRes dups plain plainSt covered_plain mkResult_cases)
set_option linter.unusedSectionVars false

variable {V C ε α β : Type}

/-! ### Specification -/

/-- The exception of a call. -/
def Event.thrown : Event C ε → Option ε
  | .goal _ (.error x) => some x
  | .heur _ (.error x) => some x
  | .heurTo _ _ (.error x) => some x
  | .valid _ (.error x) => some x
  | .dist _ (.error x) => some x
  | _ => none

/-- What a search is given: the graph, the functions, the overload, the goals of the second overload, the starts. -/
structure Task (V C ε : Type) where
  get : Int → Res (Node V C)
  fns : Fns C ε
  first : Bool
  goals : List Int
  starts : List (Int × C)

/-- The call is one that the overload makes, and the answer is the one that the function gives after the calls `h`. -/
def Says (T : Task V C ε) (h : Hist C ε) : Event C ε → Prop
  | .goal i a => T.first = true ∧ a = T.fns.goal h i
  | .heur i a => T.first = true ∧ a = T.fns.heur h i
  | .heurTo i g a => T.first = false ∧ g ∈ T.goals ∧ a = T.fns.heurTo h i g
  | .valid e a => a = T.fns.valid h e
  | .dist e a => a = T.fns.dist h e

/-- The goal check of node `i` had the answer `b`; in the second overload the answer says whether the node is one of the goals. -/
def Judged (T : Task V C ε) (h : Hist C ε) (i : Int) (b : Bool) : Prop :=
  if T.first then Event.goal i (.ok b) ∈ h else (b = true ↔ i ∈ T.goals)

/-- `e` is an out-edge of node `s` of the graph. -/
def EdgeOf (T : Task V C ε) (s : Int) (e : Edge C) : Prop := ∃ n, T.get s = .ok n ∧ e ∈ n.outs

/-- Among the calls `h`, an edge from `s` to `t` was found valid and its distance was `w`. -/
def Offered (T : Task V C ε) (h : Hist C ε) (s t : Int) (w : C) : Prop :=
  ∃ e, EdgeOf T s e ∧ e.dst = t ∧ Event.valid e (.ok true) ∈ h ∧ Event.dist e (.ok w) ∈ h

/-- The search can know of node `s`: it is a start, or a valid edge to it was found. -/
def Known (T : Task V C ε) (h : Hist C ε) (s : Int) : Prop := (∃ c, (s, c) ∈ T.starts) ∨ ∃ p w, Offered T h p s w

/-- When a call is made: goal check and heuristic only for nodes that are starts or to which a valid edge was found; the validity of an edge only
if its node is known and the goal check refused it; the distance only right after the edge was found valid. -/
def Allowed (T : Task V C ε) (h : Hist C ε) : Event C ε → Prop
  | .goal i _ => Known T h i
  | .heur i _ => Known T h i
  | .heurTo i _ _ => Known T h i
  | .valid e _ => ∃ s, EdgeOf T s e ∧ Known T h s ∧ Judged T h s false
  | .dist e _ => ∃ pre, h = pre ++ [.valid e (.ok true)]

/-- A call that may be made after the calls `h`, with its answer; none of the calls before it threw. -/
structure Right (T : Task V C ε) (h : Hist C ε) (ev : Event C ε) : Prop where
  answer : Says T h ev
  allowed : Allowed T h ev
  calm : ∀ e ∈ h, e.thrown = none

/-- A right sequence of calls. -/
def History (T : Task V C ε) (h : Hist C ε) : Prop := ∀ pre ev post, h = pre ++ ev :: post → Right T pre ev

/-- No call threw. -/
def Calm (h : Hist C ε) : Prop := ∀ e ∈ h, e.thrown = none

/-- The distances of edges of the graph are not negative. -/
def Nonneg [LE C] [Zero C] (T : Task V C ε) : Prop := ∀ h s e w, EdgeOf T s e → T.fns.dist h e = .ok w → 0 ≤ w

/-! ### Sequences of calls -/

variable {T : Task V C ε}

theorem history_nil : History T ([] : Hist C ε) := by
  intro pre ev post h
  simp at h

theorem calm_nil : Calm ([] : Hist C ε) := by
  intro e he
  simp at he

theorem History.snoc {h : Hist C ε} {ev : Event C ε} (hh : History T h) (hr : Right T h ev) : History T (h ++ [ev]) := by
  intro pre e post he
  rcases List.eq_nil_or_concat post with rfl | ⟨post', x, rfl⟩
  · obtain ⟨rfl, h2⟩ := List.append_inj' he rfl
    cases h2
    exact hr
  · rw [List.concat_eq_append, ← List.cons_append, ← List.append_assoc] at he
    obtain ⟨rfl, h2⟩ := List.append_inj' he rfl
    exact hh pre e post' rfl

theorem Calm.snoc {h : Hist C ε} {ev : Event C ε} (hh : Calm h) (he : ev.thrown = none) : Calm (h ++ [ev]) := by
  intro e hm
  rcases List.mem_append.mp hm with hm | hm
  · exact hh e hm
  · simp only [List.mem_singleton] at hm
    rw [hm]; exact he

theorem Offered.mono {h h' : Hist C ε} (hp : h <+: h') {s t : Int} {w : C} (ho : Offered T h s t w) : Offered T h' s t w := by
  obtain ⟨e, h1, h2, h3, h4⟩ := ho
  exact ⟨e, h1, h2, hp.subset h3, hp.subset h4⟩

theorem Known.mono {h h' : Hist C ε} (hp : h <+: h') {s : Int} (hk : Known T h s) : Known T h' s := by
  rcases hk with hk | ⟨p, w, ho⟩
  · exact .inl hk
  · exact .inr ⟨p, w, ho.mono hp⟩

theorem Judged.mono {h h' : Hist C ε} (hp : h <+: h') {s : Int} {b : Bool} (hk : Judged T h s b) : Judged T h' s b := by
  unfold Judged at hk ⊢
  split at hk
  · rename_i h1; rw [if_pos h1]; exact hp.subset hk
  · rename_i h1; rw [if_neg h1]; exact hk

/-- What a piece of code does to the list of calls, from `h` on. -/
def Does (T : Task V C ε) (h : Hist C ε) (r : Except (Fail ε) α × Hist C ε) (Post : α → Hist C ε → Prop) (Lib : Fail ε → Hist C ε → Prop) : Prop :=
  match r with
  | (.ok a, h') => h <+: h' ∧ Calm h' ∧ History T h' ∧ Post a h'
  | (.error (.user x), h') => h <+: h' ∧ History T h' ∧ ∃ pre ev, h' = pre ++ [ev] ∧ ev.thrown = some x
  | (.error (.lib x), h') => h <+: h' ∧ Calm h' ∧ History T h' ∧ Lib (.lib x) h'
  | (.error .ub, h') => h <+: h' ∧ Calm h' ∧ History T h' ∧ Lib .ub h'

theorem Does.bind {h : Hist C ε} {m : Run C ε α} {f : α → Run C ε β} {Post : α → Hist C ε → Prop} {Post2 : β → Hist C ε → Prop}
    {Lib : Fail ε → Hist C ε → Prop} (hm : Does T h (m h) Post Lib)
    (hf : ∀ a h', m h = (.ok a, h') → h <+: h' → Calm h' → History T h' → Post a h' → Does T h' (f a h') Post2 Lib) :
    Does T h ((m >>= f) h) Post2 Lib := by
  change Does T h (seq m f h) Post2 Lib
  unfold seq
  generalize hr : m h = r at hm
  obtain ⟨r, h'⟩ := r
  cases r with
  | ok a =>
    obtain ⟨h1, h2, h3, h4⟩ := hm
    have := hf a h' hr h1 h2 h3 h4
    dsimp only
    generalize f a h' = r2 at this
    obtain ⟨r2, h''⟩ := r2
    cases r2 with
    | ok b =>
      obtain ⟨k1, k2, k3, k4⟩ := this
      exact ⟨h1.trans k1, k2, k3, k4⟩
    | error x =>
      cases x with
      | lib x => exact ⟨h1.trans this.1, this.2⟩
      | user x => exact ⟨h1.trans this.1, this.2⟩
      | ub => exact ⟨h1.trans this.1, this.2⟩
  | error x => cases x <;> exact hm

theorem Does.post {h : Hist C ε} {r : Except (Fail ε) α × Hist C ε} {Post Post' : α → Hist C ε → Prop}
    {Lib Lib' : Fail ε → Hist C ε → Prop} (hd : Does T h r Post Lib)
    (h1 : ∀ a h', h <+: h' → Calm h' → History T h' → Post a h' → Post' a h') (h2 : ∀ x h', Lib x h' → Lib' x h') :
    Does T h r Post' Lib' := by
  obtain ⟨r, h'⟩ := r
  cases r with
  | ok a =>
    obtain ⟨k1, k2, k3, k4⟩ := hd
    exact ⟨k1, k2, k3, h1 a h' k1 k2 k3 k4⟩
  | error x =>
    cases x with
    | lib x => exact ⟨hd.1, hd.2.1, hd.2.2.1, h2 _ h' hd.2.2.2⟩
    | user x => exact hd
    | ub => exact ⟨hd.1, hd.2.1, hd.2.2.1, h2 _ h' hd.2.2.2⟩

theorem ret_does {h : Hist C ε} (hc : Calm h) (hh : History T h) (a : α) {Post : α → Hist C ε → Prop}
    {Lib : Fail ε → Hist C ε → Prop} (hp : Post a h) : Does T h (ret a h) Post Lib :=
  ⟨List.prefix_refl _, hc, hh, hp⟩

theorem ask_does {h : Hist C ε} (hc : Calm h) (hh : History T h) {f : Hist C ε → Except ε α}
    {ev : Except ε α → Event C ε} (h1 : Says T h (ev (f h))) (h2 : Allowed T h (ev (f h)))
    (h3 : ∀ a, (ev (.ok a)).thrown = none) (h4 : ∀ x, (ev (.error x)).thrown = some x) {Lib : Fail ε → Hist C ε → Prop} :
    Does T h (ask f ev h) (fun a h' => f h = .ok a ∧ h' = h ++ [ev (.ok a)]) Lib := by
  unfold ask
  cases hf : f h with
  | ok a =>
    rw [hf] at h1 h2
    exact ⟨List.prefix_append _ _, hc.snoc (h3 a), hh.snoc ⟨h1, h2, hc⟩, rfl, rfl⟩
  | error x =>
    rw [hf] at h1 h2
    exact ⟨List.prefix_append _ _, hh.snoc ⟨h1, h2, hc⟩, h, _, rfl, h4 x⟩

/-! ### The edges of a sequence of calls -/

variable [LinearOrder C] [Add C] [Zero C] [OrderTop C]

open Classical in
/-- The children of `s` that a call gave. -/
noncomputable def given (T : Task V C ε) (s : Int) : Event C ε → List (Int × C)
  | .dist e (.ok w) => if EdgeOf T s e ∧ 0 ≤ w then [(e.dst, w)] else []
  | _ => []

/-- The problem with the children given so far; the heuristic does not matter. -/
noncomputable def soFar (T : Task V C ε) (b : Bool) (h : Hist C ε) : Problem Int C :=
  ⟨fun _ => false, fun s => .ok (h.flatMap (given T s)), fun _ => ⊤, b⟩

theorem soFar_iff (b : Bool) (h : Hist C ε) (s t : Int) (w : C) : PEdge (soFar T b h) s t w ↔
    0 ≤ w ∧ ∃ e, EdgeOf T s e ∧ e.dst = t ∧ Event.dist e (.ok w) ∈ h := by
  constructor
  · rintro ⟨l, hl, hm⟩
    cases hl
    obtain ⟨ev, he, hg⟩ := List.mem_flatMap.mp hm
    unfold given at hg
    split at hg
    · split at hg
      · rename_i hp
        obtain ⟨h1, h0⟩ := hp
        simp only [List.mem_singleton, Prod.mk.injEq] at hg
        obtain ⟨rfl, rfl⟩ := hg
        exact ⟨h0, _, h1, rfl, he⟩
      · simp at hg
    · simp at hg
  · rintro ⟨h0, e, h1, rfl, h2⟩
    refine ⟨_, rfl, List.mem_flatMap.mpr ⟨_, h2, ?_⟩⟩
    simp [given, h0, h1]

theorem soFar_mono {b : Bool} {h h' : Hist C ε} (hp : h <+: h') {s t : Int} {w : C} (he : PEdge (soFar T b h) s t w) :
    PEdge (soFar T b h') s t w := by
  rw [soFar_iff] at he ⊢
  obtain ⟨h0, e, h1, h2, h3⟩ := he
  exact ⟨h0, e, h1, h2, hp.subset h3⟩

theorem soFar_nonneg {b : Bool} {h : Hist C ε} : ∀ (s t : Int) (w : C), PEdge (soFar T b h) s t w → 0 ≤ w :=
  fun s t w he => ((soFar_iff b h s t w).mp he).1

theorem soFar_offered {b : Bool} {h : Hist C ε} (hh : History T h) {s t : Int} {w : C}
    (he : PEdge (soFar T b h) s t w) : Offered T h s t w := by
  obtain ⟨h0, e, h1, h2, h3⟩ := (soFar_iff b h s t w).mp he
  obtain ⟨pre, post, rfl⟩ := List.append_of_mem h3
  obtain ⟨pre', rfl⟩ := (hh pre _ post rfl).allowed
  exact ⟨e, h1, h2, by simp, h3⟩

theorem offered_soFar (hN : Nonneg T) {b : Bool} {h : Hist C ε} (hh : History T h) {s t : Int} {w : C}
    (ho : Offered T h s t w) : PEdge (soFar T b h) s t w := by
  obtain ⟨e, h1, h2, _, h3⟩ := ho
  obtain ⟨pre, post, rfl⟩ := List.append_of_mem h3
  exact (soFar_iff _ _ _ _ _).mpr ⟨hN _ _ _ _ h1 (hh pre _ post rfl).answer.symm, e, h1, h2, h3⟩

/-- `h'` has no calls of the distance function after `h`. -/
def Quiet (h h' : Hist C ε) : Prop := ∃ l, h' = h ++ l ∧ ∀ e a, Event.dist e a ∉ l

theorem Quiet.refl (h : Hist C ε) : Quiet h h := ⟨[], by simp, by simp⟩

theorem Quiet.snoc (h : Hist C ε) {ev : Event C ε} (hev : ∀ e a, Event.dist e a ≠ ev) : Quiet h (h ++ [ev]) := ⟨[ev], rfl, by simpa using hev⟩

theorem Quiet.trans {h h' h'' : Hist C ε} (h1 : Quiet h h') (h2 : Quiet h' h'') : Quiet h h'' := by
  obtain ⟨l, rfl, k1⟩ := h1
  obtain ⟨l', rfl, k2⟩ := h2
  refine ⟨l ++ l', by simp, fun e a hm => ?_⟩
  rcases List.mem_append.mp hm with hm | hm
  · exact k1 e a hm
  · exact k2 e a hm

theorem Quiet.pre {h h' : Hist C ε} (h1 : Quiet h h') : h <+: h' := by
  obtain ⟨l, rfl, _⟩ := h1
  exact List.prefix_append _ _

theorem Quiet.edge {b : Bool} {h h' : Hist C ε} (hh : Quiet h h') {s t : Int} {w : C} (he : PEdge (soFar T b h') s t w) :
    PEdge (soFar T b h) s t w := by
  obtain ⟨l, rfl, h2⟩ := hh
  rw [soFar_iff] at he ⊢
  obtain ⟨h0, e, h1, h3, h4⟩ := he
  refine ⟨h0, e, h1, h3, ?_⟩
  rcases List.mem_append.mp h4 with h4 | h4
  · exact h4
  · exact absurd h4 (h2 _ _)

/-! ### Goal check and heuristic -/

/-- No other failures than the exceptions of functions. -/
def Never : Fail ε → Hist C ε → Prop := fun _ _ => False

/-- The code belongs to the task. -/
structure Fits (T : Task V C ε) (W : World V C ε) : Prop where
  get : W.get = T.get
  valid : W.valid = T.fns.valid
  dist : W.dist = T.fns.dist
  goal : ∀ (i : Int) (h : Hist C ε), Calm h → History T h → Known T h i → Does T h (W.goal i h) (fun b h' => Quiet h h' ∧ Judged T h' i b) Never
  heur : ∀ (i : Int) (h : Hist C ε), Calm h → History T h → Known T h i → Does T h (W.heur i h) (fun _ h' => Quiet h h') Never

theorem fits1 (get : Int → Res (Node V C)) (F : Fns C ε) (starts : List (Int × C)) (b : Bool) :
    Fits ⟨get, F, true, [], starts⟩ (world1 get F b) := by
  refine ⟨rfl, rfl, rfl, fun i h hc hh hk => ?_, fun i h hc hh hk => ?_⟩
  · refine (ask_does hc hh (f := fun h => F.goal h i) (ev := Event.goal i) ⟨rfl, rfl⟩ hk (fun _ => rfl) (fun _ => rfl)).post
      (fun a h' _ _ _ h4 => ?_) (fun _ _ h => h)
    obtain ⟨_, rfl⟩ := h4
    exact ⟨.snoc h (by simp), by simp [Judged]⟩
  · refine (ask_does hc hh (f := fun h => F.heur h i) (ev := Event.heur i) ⟨rfl, rfl⟩ hk (fun _ => rfl) (fun _ => rfl)).post
      (fun a h' _ _ _ h4 => ?_) (fun _ _ h => h)
    obtain ⟨_, rfl⟩ := h4
    exact .snoc h (by simp)

theorem bestHeur_does (hf : T.first = false) (i : Int) (l : List Int) (hl : ∀ g ∈ l, g ∈ T.goals) (best : C) {h : Hist C ε} (hc : Calm h)
    (hh : History T h) (hk : Known T h i) : Does T h (bestHeur T.fns.heurTo i best l h) (fun _ h' => Quiet h h') Never := by
  induction l generalizing best h with
  | nil => exact ret_does hc hh _ (.refl h)
  | cons g l ih =>
    unfold bestHeur
    refine (ask_does hc hh (f := fun h => T.fns.heurTo h i g) (ev := Event.heurTo i g) ⟨hf, hl g (by simp), rfl⟩ hk (fun _ => rfl) (fun _ => rfl)).bind
      (fun v h1 _ hp1 hc1 hh1 hv => ?_)
    obtain ⟨_, rfl⟩ := hv
    exact (ih (fun g hg => hl g (by simp [hg])) _ hc1 hh1 (hk.mono hp1)).post (fun _ _ _ _ _ h4 => (Quiet.snoc h (by simp)).trans h4) (fun _ _ h => h)

theorem fits2 (get : Int → Res (Node V C)) (goals : List Int) (F : Fns C ε) (starts : List (Int × C)) (b : Bool) :
    Fits ⟨get, F, false, goals, starts⟩ (world2 get goals F b) := by
  refine ⟨rfl, rfl, rfl, fun i h hc hh hk => ?_, fun i h hc hh hk => ?_⟩
  · exact ret_does hc hh _ ⟨.refl h, by simp [Judged]⟩
  · exact bestHeur_does (T := ⟨get, F, false, goals, starts⟩) rfl i goals (fun _ h => h) ⊤ hc hh hk

/-! ### The loops -/

theorem plainSt_push (b : Bool) (h : Hist C ε) (st : St Int C) (e : Elem Int C) :
    plainSt (push (dups b) st e) = push (soFar T b h) (plainSt st) (plain e) := rfl

theorem pushStarts_does {W : World V C ε} (hF : Fits T W) (l : List (Int × C)) (hl : ∀ x ∈ l, x ∈ T.starts) (st : St Int C) {h : Hist C ε}
    (hc : Calm h) (hh : History T h) :
    Does T h (pushStarts W st l h) (fun st' h' => Quiet h h' ∧ ∀ h0 : Hist C ε, plainSt st' =
      l.foldl (pushStart (soFar T W.limit h0)) (plainSt st)) Never := by
  induction l generalizing st h with
  | nil => exact ret_does hc hh _ ⟨.refl h, fun _ => rfl⟩
  | cons a l ih =>
    unfold pushStarts
    split
    · rename_i hb
      refine (ih (fun x hx => hl x (by simp [hx])) st hc hh).post (fun st' h' _ _ _ h4 => ⟨h4.1, fun h0 => ?_⟩) (fun _ _ h => h)
      rw [h4.2 h0, List.foldl_cons]
      congr 1
      unfold pushStart
      rw [if_pos (show queueBetter (soFar T W.limit h0) (plainSt st).members a.1 a.2 = true from hb)]
    · rename_i hb
      have ha : a ∈ T.starts := hl a (by simp)
      refine (hF.heur a.1 h hc hh (.inl ⟨a.2, ha⟩)).bind (fun v h1 _ _ hc' hh' hv => ?_)
      refine (ih (fun x hx => hl x (by simp [hx])) _ hc' hh').post (fun st' h' _ _ _ h4 => ⟨hv.trans h4.1, fun h0 => ?_⟩) (fun _ _ h => h)
      rw [h4.2 h0, List.foldl_cons]
      congr 1
      unfold pushStart
      rw [if_neg (show ¬ queueBetter (soFar T W.limit h0) (plainSt st).members a.1 a.2 = true from hb)]
      rfl

/-- What is known of the children of `s` after the loop over the edges `es`. -/
structure KidsPost (T : Task V C ε) (h : Hist C ε) (s : Int) (es : List (Edge C)) (l : List (Int × C)) (h' : Hist C ε) : Prop where
  edges : ∀ x ∈ l, PEdge (soFar T true h') s x.1 x.2
  back : ∀ p t w, PEdge (soFar T true h') p t w → PEdge (soFar T true h) p t w ∨ (t, w) ∈ l
  checked : ∀ e ∈ es, ∃ a, Event.valid e (.ok a) ∈ h'
  few : l.length ≤ es.length

theorem soFar_flag (b b' : Bool) (h : Hist C ε) (s t : Int) (w : C) : PEdge (soFar T b h) s t w ↔ PEdge (soFar T b' h) s t w := by
  rw [soFar_iff, soFar_iff]

theorem pushEdges_does {W : World V C ε} (hF : Fits T W) (hN : Nonneg T) (s : Int) (c : C) (l : List (Edge C)) (hl : ∀ e ∈ l, EdgeOf T s e)
    (st : St Int C) {h : Hist C ε} (hk : Known T h s) (hj : Judged T h s false) (hc : Calm h) (hh : History T h) :
    Does T h (pushEdges W s c st l h) (fun st' h' => ∃ ks, KidsPost T h s l ks h' ∧ ∀ h0 : Hist C ε, plainSt st' =
      ks.foldl (pushKid (soFar T W.limit h0) s c) (plainSt st)) Never := by
  induction l generalizing st h with
  | nil => exact ret_does hc hh _ ⟨[], ⟨by simp, fun p t w he => .inl he, by simp, by simp⟩, fun _ => rfl⟩
  | cons e l ih =>
    have hl' : ∀ e ∈ l, EdgeOf T s e := fun x hx => hl x (by simp [hx])
    have he := hl e (by simp)
    unfold pushEdges
    refine (ask_does hc hh (f := fun h => W.valid h e) (ev := Event.valid e) (show _ = _ by rw [hF.valid]) ⟨s, he, hk, hj⟩
      (fun _ => rfl) (fun _ => rfl)).bind (fun v h1 _ hp1 hc1 hh1 hv => ?_)
    obtain ⟨_, rfl⟩ := hv
    cases v with
    | false =>
      refine (ih hl' st (hk.mono hp1) (hj.mono hp1) hc1 hh1).post (fun st' h' hp' _ _ ⟨ks, k, k5⟩ => ⟨ks, ⟨k.edges, fun p t w hw => ?_, ?_, ?_⟩, k5⟩)
        (fun _ _ h => h)
      · exact (k.back p t w hw).imp (fun hw => (Quiet.snoc h (by simp)).edge hw) id
      · intro x hx
        rcases List.mem_cons.mp hx with rfl | hx
        · exact ⟨false, hp'.subset (by simp)⟩
        · exact k.checked x hx
      · have := k.few; simp only [List.length_cons]; omega
    | true =>
      refine (ask_does hc1 hh1 (f := fun h => W.dist h e) (ev := Event.dist e) (show _ = _ by rw [hF.dist]) ⟨h, rfl⟩
        (fun _ => rfl) (fun _ => rfl)).bind (fun d h2 _ hp2 hc2 hh2 hd => ?_)
      obtain ⟨hd, rfl⟩ := hd
      have h0 : 0 ≤ d := hN _ _ _ _ he (by rw [← hF.dist]; exact hd)
      have hp12 := hp1.trans hp2
      have hedge : PEdge (soFar T true (h ++ [.valid e (.ok true)] ++ [.dist e (.ok d)])) s e.dst d :=
        (soFar_iff _ _ _ _ _).mpr ⟨h0, e, he, rfl, by simp⟩
      have hback : ∀ p t w, PEdge (soFar T true (h ++ [.valid e (.ok true)] ++ [.dist e (.ok d)])) p t w →
          PEdge (soFar T true h) p t w ∨ (t, w) = (e.dst, d) := by
        intro p t w hw
        rw [soFar_iff] at hw
        obtain ⟨h7, e', h8, h9, h10⟩ := hw
        rcases List.mem_append.mp h10 with h10 | h10
        · refine .inl ((soFar_iff _ _ _ _ _).mpr ⟨h7, e', h8, h9, ?_⟩)
          simpa using h10
        · simp only [List.mem_singleton, Event.dist.injEq, Except.ok.injEq] at h10
          obtain ⟨rfl, rfl⟩ := h10
          exact .inr (by rw [h9])
      have finish : ∀ {h3 : Hist C ε}, (h ++ [.valid e (.ok true)] ++ [.dist e (.ok d)]) <+: h3 → Quiet (h ++ [.valid e (.ok true)] ++ [.dist e (.ok d)]) h3 →
          ∀ (ks : List (Int × C)) (h' : Hist C ε), h3 <+: h' → KidsPost T h3 s l ks h' → KidsPost T h s (e :: l) ((e.dst, d) :: ks) h' := by
        intro h3 hp3 hq3 ks h' hp' k
        refine ⟨?_, ?_, ?_, ?_⟩
        · intro x hx
          rcases List.mem_cons.mp hx with rfl | hx
          · exact soFar_mono (hp3.trans hp') hedge
          · exact k.edges x hx
        · intro p t w hw
          rcases k.back p t w hw with hw | hw
          · exact (hback p t w (hq3.edge hw)).imp id (fun h => by rw [h]; simp)
          · exact .inr (by simp [hw])
        · intro x hx
          rcases List.mem_cons.mp hx with rfl | hx
          · exact ⟨true, hp'.subset (hp3.subset (by simp))⟩
          · exact k.checked x hx
        · have := k.few; simp only [List.length_cons]; omega
      split
      · rename_i hb
        refine (ih hl' st (hk.mono hp12) (hj.mono hp12) hc2 hh2).post (fun st' h' hp' _ _ ⟨ks, k, k5⟩ => ⟨(e.dst, d) :: ks,
          finish (List.prefix_refl _) (.refl _) ks h' hp' k, fun h0 => ?_⟩) (fun _ _ h => h)
        rw [k5 h0, List.foldl_cons]
        congr 1
        unfold pushKid
        rw [if_pos (show (exploredBetter (plainSt st).explored e.dst (c + d) || queueBetter (soFar T W.limit h0) (plainSt st).members e.dst (c + d)) = true
          from hb)]
      · rename_i hb
        refine (hF.heur e.dst _ hc2 hh2 (.inr ⟨s, d, soFar_offered hh2 hedge⟩)).bind (fun v h3 _ hp3 hc3 hh3 hv => ?_)
        refine (ih hl' _ ((hk.mono hp12).mono hp3) ((hj.mono hp12).mono hp3) hc3 hh3).post (fun st' h' hp' _ _ ⟨ks, k, k5⟩ => ⟨(e.dst, d) :: ks,
          finish hp3 hv ks h' hp' k, fun h0 => ?_⟩) (fun _ _ h => h)
        rw [k5 h0, List.foldl_cons]
        congr 1
        unfold pushKid
        rw [if_neg (show ¬ (exploredBetter (plainSt st).explored e.dst (c + d) || queueBetter (soFar T W.limit h0) (plainSt st).members e.dst (c + d)) = true
          from hb)]
        rfl

/-! ### The search loop -/

/-- All out-edges of node `s` were checked. -/
def Asked (T : Task V C ε) (h : Hist C ε) (s : Int) : Prop := ∃ n, T.get s = .ok n ∧ ∀ e ∈ n.outs, ∃ a, Event.valid e (.ok a) ∈ h

theorem Asked.mono {h h' : Hist C ε} (hp : h <+: h') {s : Int} (ha : Asked T h s) : Asked T h' s := by
  obtain ⟨n, h1, h2⟩ := ha
  refine ⟨n, h1, fun e he => ?_⟩
  obtain ⟨a, h3⟩ := h2 e he
  exact ⟨a, hp.subset h3⟩

/-- The invariant of the search loop. -/
structure LInv (T : Task V C ε) (b : Bool) (st : St Int C) (h : Hist C ε) : Prop where
  ex : ExInv (soFar T b h) T.starts st.explored
  q : QInv (soFar T b h) T.starts (plainSt st)
  asked : ∀ s, st.explored s ≠ none → Judged T h s false ∧ Asked T h s
  starts : ∀ s c, (s, c) ∈ T.starts → ∃ k, Covered st s k
  closed : ∀ s t w, PEdge (soFar T b h) s t w → ∃ k, Covered st t k

theorem LInv.mono {b : Bool} {st : St Int C} {h h' : Hist C ε} (hi : LInv T b st h) (hq : Quiet h h') : LInv T b st h' := by
  have hm : ∀ s t w, PEdge (soFar T b h) s t w → PEdge (soFar T b h') s t w := fun _ _ _ => soFar_mono hq.pre
  exact ⟨Astar.Callbacks.ExInv.mono hm hi.ex, Astar.Callbacks.QInv.mono (P := soFar T b h) (P' := soFar T b h') rfl rfl hm hi.q,
    fun s hs => ⟨(hi.asked s hs).1.mono hq.pre, (hi.asked s hs).2.mono hq.pre⟩, hi.starts, fun s t w he => hi.closed s t w (hq.edge he)⟩

theorem LInv.known {b : Bool} {st : St Int C} {h : Hist C ε} (hi : LInv T b st h) (hh : History T h) {e : Elem Int C}
    (he : e ∈ st.queue) : Known T h e.state := by
  rcases hi.q.elems (plain e) (List.mem_map_of_mem he) with ⟨_, h2, _⟩ | ⟨p, l, cold, w, _, _, _, _, h5, _, _⟩
  · exact .inl ⟨_, h2⟩
  · exact .inr ⟨p, w, soFar_offered hh h5⟩

theorem erased_plain {b : Bool} {h : Hist C ε} {st : St Int C} (hq : QInv (soFar T b h) T.starts (plainSt st)) {top : Elem Int C}
    {rest : List (Elem Int C)} (hp : Pop st.queue top rest) (hl : b = true) (s : Int) (c : C)
    (hm : erased (dups b) st.members top.state s = some c) : ∃ e ∈ rest.map plain, e.state = s ∧ e.cost = c := by
  unfold erased at hm
  rw [if_pos (show (dups b : Problem Int C).limit = true from hl)] at hm
  by_cases hs : s = top.state
  · subst hs; rw [upd_self] at hm; cases hm
  · rw [upd_ne _ _ _ _ hs] at hm
    obtain ⟨e, he, h1, h2⟩ := hq.members hl s c hm
    obtain ⟨e', he', rfl⟩ := List.mem_map.mp he
    rcases hp.mem_cases he' with rfl | he'
    · exact absurd h1.symm hs
    · exact ⟨plain e', List.mem_map_of_mem he', h1, h2⟩

theorem LInv.skip {W : World V C ε} {st : St Int C} {h : Hist C ε} (hi : LInv T W.limit st h) {top : Elem Int C} {rest : List (Elem Int C)}
    (hp : Pop st.queue top rest) (hb : exploredBetter st.explored top.state top.cost = true) :
    LInv T W.limit ⟨rest, erased (dups W.limit) st.members top.state, st.explored⟩ h := by
  have hcov : ∀ t k, Covered st t k → Covered ⟨rest, erased (dups W.limit) st.members top.state, st.explored⟩ t k := by
    intro t k hc
    rcases hc with hc | ⟨e, he, h1, h2⟩
    · exact .inl hc
    · rcases hp.mem_cases he with rfl | he
      · exact .inl (by rw [← h1]; exact ((exploredBetter_iff _ _ _).mp hb).mono h2)
      · exact .inr ⟨e, he, h1, h2⟩
  refine ⟨hi.ex, ⟨fun hl s c hm => erased_plain hi.q hp hl s c hm, fun e he => ?_⟩, hi.asked, ?_, ?_⟩
  · obtain ⟨e', he', rfl⟩ := List.mem_map.mp he
    exact hi.q.elems (plain e') (List.mem_map_of_mem (hp.mem_rest he'))
  · intro s c hs
    obtain ⟨k, hk⟩ := hi.starts s c hs
    exact ⟨k, hcov _ _ hk⟩
  · intro s t w he
    obtain ⟨k, hk⟩ := hi.closed s t w he
    exact ⟨k, hcov _ _ hk⟩

variable [CostLaws C]

theorem LInv.accepted {W : World V C ε} {st : St Int C} {h : Hist C ε} (hi : LInv T W.limit st h) {top : Elem Int C}
    {rest : List (Elem Int C)} (hp : Pop st.queue top rest) (hb : exploredBetter st.explored top.state top.cost = false) :
    ExInv (soFar T W.limit h) T.starts (accept W st top rest).explored ∧
    QInv (soFar T W.limit h) T.starts (plainSt (accept W st top rest)) ∧
    (∀ t k, Covered st t k → Covered (accept W st top rest) t k) := by
  have htop := hi.q.elems (plain top) (List.mem_map_of_mem hp.mem_top)
  refine ⟨hi.ex.accept soFar_nonneg (top := plain top) hb htop, ⟨fun hl s c hm => erased_plain hi.q hp hl s c hm, fun e he => ?_⟩, ?_⟩
  · obtain ⟨e', he', rfl⟩ := List.mem_map.mp he
    exact (hi.q.elems (plain e') (List.mem_map_of_mem (hp.mem_rest he'))).upd (top := plain top) hb
  · intro t k hc
    rcases hc with hc | ⟨e, he, h1, h2⟩
    · exact .inl (hc.upd hb)
    · rcases hp.mem_cases he with rfl | he
      · exact .inl ⟨_, _, by rw [← h1]; exact upd_self _ _ _, h2⟩
      · exact .inr ⟨e, he, h1, h2⟩

/-- A node is not in the graph although the search knows of it. -/
def NoNode (T : Task V C ε) (x : Fail ε) (h : Hist C ε) : Prop :=
  ∃ i, Known T h i ∧ Judged T h i false ∧ (ofRes (T.get i) : Except (Fail ε) (Node V C)) = .error x

/-- The expansion of an accepted element. -/
theorem expand_does {W : World V C ε} (hF : Fits T W) (hN : Nonneg T) {st : St Int C} {h : Hist C ε}
    (hi : LInv T W.limit st h) (hc : Calm h) (hh : History T h) {top : Elem Int C}
    {rest : List (Elem Int C)} (hp : Pop st.queue top rest) (hb : exploredBetter st.explored top.state top.cost = false)
    (hj : Judged T h top.state false) :
    Does T h (expandTop W top (accept W st top rest) h)
      (fun st' h' => LInv T W.limit st' h' ∧ ∃ n ks, T.get top.state = .ok n ∧ KidsPost T h top.state n.outs ks h' ∧ ∀ h0 : Hist C ε,
        plainSt st' = ks.foldl (pushKid (soFar T W.limit h0) top.state top.cost) (plainSt (accept W st top rest))) (NoNode T) := by
  obtain ⟨a1, a2, a3⟩ := hi.accepted hp hb
  have hk := hi.known hh hp.mem_top
  unfold expandTop
  refine Does.bind (Post := fun n h' => h' = h ∧ T.get top.state = .ok n) ?_ (fun n h1 _ _ _ _ hn => ?_)
  · rw [hF.get]
    cases hg : T.get top.state with
    | ok n => exact ⟨List.prefix_refl _, hc, hh, rfl, rfl⟩
    | throw x => exact ⟨List.prefix_refl _, hc, hh, top.state, hk, hj, by rw [hg]; rfl⟩
    | ub => exact ⟨List.prefix_refl _, hc, hh, top.state, hk, hj, by rw [hg]; rfl⟩
  · obtain ⟨rfl, hn⟩ := hn
    refine (pushEdges_does hF hN top.state top.cost n.outs (fun e he => ⟨n, hn, he⟩) (accept W st top rest) hk hj hc hh).post
      (fun st' h2 hp2 hc2 hh2 ⟨ks, k, hst⟩ => ⟨?_, n, ks, hn, k, hst⟩) (fun _ _ h => h.elim)
    have hm2 : ∀ s t w, PEdge (soFar T W.limit h1) s t w → PEdge (soFar T W.limit h2) s t w := fun _ _ _ => soFar_mono hp2
    have b1 : ExInv (soFar T W.limit h2) T.starts (accept W st top rest).explored := Astar.Callbacks.ExInv.mono hm2 a1
    have b2 : QInv (soFar T W.limit h2) T.starts (plainSt (accept W st top rest)) :=
      Astar.Callbacks.QInv.mono (P := soFar T W.limit h1) (P' := soFar T W.limit h2) rfl rfl hm2 a2
    have hent : ∃ l, RWalk T.starts (PEdge (soFar T W.limit h2)) (top.state :: l) top.cost ∧ (top.state :: l).Nodup ∧
        ∀ q ∈ top.state :: l, Le (plainSt (accept W st top rest)).explored q top.cost := by
      obtain ⟨τ, N, _, hent⟩ := b1.entry
      exact (hent top.state top.cost top.back (upd_self _ _ _)).1
    obtain ⟨k1, k2, k3, k4⟩ := kids_inv ks _ b2 hent (fun x hx => (soFar_flag true W.limit h2 _ _ _).mp (k.edges x hx))
    rw [← hst h2] at k1 k2 k3 k4
    have k3' : ∀ t k, Covered (accept W st top rest) t k → Covered st' t k := fun t k hk =>
      (covered_plain st' t k).mp (k3 t k ((covered_plain _ t k).mpr hk))
    have k2' : st'.explored = (accept W st top rest).explored := k2
    refine ⟨by rw [k2']; exact b1, k1, ?_, ?_, ?_⟩
    · intro s hs
      rw [k2'] at hs
      by_cases h0 : s = top.state
      · rw [h0]
        exact ⟨hj.mono hp2, n, hn, k.checked⟩
      · have := hi.asked s (by unfold accept at hs; dsimp only at hs; rwa [upd_ne _ _ _ _ h0] at hs)
        exact ⟨this.1.mono hp2, this.2.mono hp2⟩
    · intro s c hs
      obtain ⟨k, hk⟩ := hi.starts s c hs
      exact ⟨k, k3' _ _ (a3 _ _ hk)⟩
    · intro s t w he
      rcases k.back s t w ((soFar_flag W.limit true h2 _ _ _).mp he) with he | hm
      · obtain ⟨k, hk⟩ := hi.closed s t w ((soFar_flag true W.limit h1 _ _ _).mp he)
        exact ⟨k, k3' _ _ (a3 _ _ hk)⟩
      · exact ⟨_, (covered_plain st' _ _).mp (k4 (t, w) hm)⟩

/-- The state of a search between two iterations. -/
structure Good (T : Task V C ε) (b : Bool) (a : St Int C × Hist C ε) : Prop where
  inv : LInv T b a.1 a.2
  calm : Calm a.2
  right : History T a.2

theorem Good.step {W : World V C ε} (hF : Fits T W) (hN : Nonneg T) {a b : St Int C × Hist C ε}
    (hg : Good T W.limit a) (hs : Step W a b) : Good T W.limit b ∧ a.2 <+: b.2 := by
  obtain ⟨hi, hc, hh⟩ := hg
  cases hs with
  | skip hp hb => exact ⟨⟨hi.skip hp hb, hc, hh⟩, List.prefix_refl _⟩
  | @expand st st' h h1 h2 top rest hp hb hgo hk =>
    have h3 := hF.goal top.state h hc hh (hi.known hh hp.mem_top)
    rw [hgo] at h3
    obtain ⟨h4, h5, h6, h7, h8⟩ := h3
    have h9 := expand_does hF hN (hi.mono h7) h5 h6 hp hb h8
    rw [hk] at h9
    obtain ⟨k1, k2, k3, k4, _⟩ := h9
    exact ⟨⟨k4, k2, k3⟩, h4.trans k1⟩

theorem Good.steps {W : World V C ε} (hF : Fits T W) (hN : Nonneg T) {a b : St Int C × Hist C ε}
    (hg : Good T W.limit a) (hs : Steps W a b) : Good T W.limit b ∧ a.2 <+: b.2 := by
  induction hs with
  | refl => exact ⟨hg, List.prefix_refl _⟩
  | step h1 _ ih =>
    obtain ⟨h2, h3⟩ := hg.step hF hN h1
    obtain ⟨h4, h5⟩ := ih h2
    exact ⟨h4, h3.trans h5⟩

end CRU.GraphSearch.Callbacks
