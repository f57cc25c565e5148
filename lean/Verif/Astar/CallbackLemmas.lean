import Verif.Astar.Callbacks
import Verif.Astar.Props
/-
  C113: specification of the calls of a search, and the invariant of the search loop.
-/
namespace CRU.Astar.Callbacks
open CRU.Astar
set_option linter.unusedSectionVars false

variable {S C ε α β : Type}

/-! ### Specification -/

/-- The exception of a call. -/
def Event.thrown : Event S C ε → Option ε
  | .goal _ (.error x) => some x
  | .heur _ (.error x) => some x
  | .kids _ (.error x) => some x
  | .gen _ (.error x) => some x
  | .valid _ _ (.error x) => some x
  | .dist _ _ (.error x) => some x
  | _ => none

/-- The call is one that the overload makes, and the answer is the one that the function gives after the calls `h`. -/
def Says (F : Fns S C ε) (first : Bool) (h : Hist S C ε) : Event S C ε → Prop
  | .goal s a => a = F.goal h s
  | .heur s a => a = F.heur h s
  | .kids s a => first = true ∧ a = F.kids h s
  | .gen s a => first = false ∧ a = F.gen h s
  | .valid s t a => first = false ∧ a = F.valid h s t
  | .dist s t a => first = false ∧ a = F.dist h s t

section
variable [LE C] [Zero C]

/-- Among the calls `h`, `t` was offered as a child of `s` with cost `w`: by the function that gives children with costs, or as a generated
child whose edge was found valid and whose distance was `w`. -/
def Offered (h : Hist S C ε) (s t : S) (w : C) : Prop :=
  (∃ l, Event.kids s (.ok l) ∈ h ∧ (t, w) ∈ l) ∨
  ((∃ l, Event.gen s (.ok l) ∈ h ∧ t ∈ l) ∧ Event.valid s t (.ok true) ∈ h ∧ Event.dist s t (.ok w) ∈ h ∧ 0 ≤ w)

/-- The search can know of `s`: it is a start, or it was offered as a child. -/
def Known (starts : List (S × C)) (h : Hist S C ε) (s : S) : Prop := (∃ c, (s, c) ∈ starts) ∨ ∃ p w, Offered h p s w

/-- When a call is made: goal check and heuristic only for states that are starts or were offered; children only right after the goal check
refused the state; validity only for generated children; distance only right after the edge was found valid. -/
def Allowed (starts : List (S × C)) (h : Hist S C ε) : Event S C ε → Prop
  | .goal s _ => Known starts h s
  | .heur s _ => Known starts h s
  | .kids s _ => ∃ pre, h = pre ++ [.goal s (.ok false)]
  | .gen s _ => ∃ pre, h = pre ++ [.goal s (.ok false)]
  | .valid s t _ => ∃ l, Event.gen s (.ok l) ∈ h ∧ t ∈ l
  | .dist s t _ => ∃ pre, h = pre ++ [.valid s t (.ok true)]

/-- A call that may be made after the calls `h`, with its answer; none of the calls before it threw. -/
structure Right (F : Fns S C ε) (first : Bool) (starts : List (S × C)) (h : Hist S C ε) (ev : Event S C ε) : Prop where
  answer : Says F first h ev
  allowed : Allowed starts h ev
  calm : ∀ e ∈ h, e.thrown = none

/-- A right sequence of calls. -/
def History (F : Fns S C ε) (first : Bool) (starts : List (S × C)) (h : Hist S C ε) : Prop :=
  ∀ pre ev post, h = pre ++ ev :: post → Right F first starts pre ev

end

/-- No call threw. -/
def Calm (h : Hist S C ε) : Prop := ∀ e ∈ h, e.thrown = none

/-! ### Sequences of calls -/

section
variable [LE C] [Zero C] {F : Fns S C ε} {first : Bool} {starts : List (S × C)}

theorem history_nil : History F first starts ([] : Hist S C ε) := by
  intro pre ev post h
  simp at h

theorem History.snoc {h : Hist S C ε} {ev : Event S C ε} (hh : History F first starts h) (hr : Right F first starts h ev) :
    History F first starts (h ++ [ev]) := by
  intro pre e post he
  rcases List.eq_nil_or_concat post with rfl | ⟨post', x, rfl⟩
  · obtain ⟨rfl, h2⟩ := List.append_inj' he rfl
    cases h2
    exact hr
  · rw [List.concat_eq_append, ← List.cons_append, ← List.append_assoc] at he
    obtain ⟨rfl, h2⟩ := List.append_inj' he rfl
    exact hh pre e post' rfl

theorem Calm.snoc {h : Hist S C ε} {ev : Event S C ε} (hh : Calm h) (he : ev.thrown = none) : Calm (h ++ [ev]) := by
  intro e hm
  rcases List.mem_append.mp hm with hm | hm
  · exact hh e hm
  · simp only [List.mem_singleton] at hm
    rw [hm]; exact he

theorem Offered.mono {h h' : Hist S C ε} (hp : h <+: h') {s t : S} {w : C} (ho : Offered h s t w) : Offered h' s t w := by
  rcases ho with ⟨l, h1, h2⟩ | ⟨⟨l, h1, h2⟩, h3, h4, h5⟩
  · exact .inl ⟨l, hp.subset h1, h2⟩
  · exact .inr ⟨⟨l, hp.subset h1, h2⟩, hp.subset h3, hp.subset h4, h5⟩

theorem Known.mono {h h' : Hist S C ε} (hp : h <+: h') {s : S} (hk : Known starts h s) : Known starts h' s := by
  rcases hk with hk | ⟨p, w, ho⟩
  · exact .inl hk
  · exact .inr ⟨p, w, ho.mono hp⟩

/-- What a piece of code does to the list of calls, from `h` on. -/
def Does (F : Fns S C ε) (first : Bool) (starts : List (S × C)) (h : Hist S C ε) (r : Except (Fail ε) α × Hist S C ε)
    (Post : α → Hist S C ε → Prop) (Lib : Exc → Hist S C ε → Prop) : Prop :=
  match r with
  | (.ok a, h') => h <+: h' ∧ Calm h' ∧ History F first starts h' ∧ Post a h'
  | (.error (.user x), h') => h <+: h' ∧ History F first starts h' ∧ ∃ pre ev, h' = pre ++ [ev] ∧ ev.thrown = some x
  | (.error (.lib x), h') => h <+: h' ∧ Calm h' ∧ History F first starts h' ∧ Lib x h'
  | (.error .ub, _) => False

theorem Does.bind {h : Hist S C ε} {m : Run S C ε α} {f : α → Run S C ε β} {Post : α → Hist S C ε → Prop} {Post2 : β → Hist S C ε → Prop}
    {Lib : Exc → Hist S C ε → Prop} (hm : Does F first starts h (m h) Post Lib)
    (hf : ∀ a h', m h = (.ok a, h') → h <+: h' → Calm h' → History F first starts h' → Post a h' → Does F first starts h' (f a h') Post2 Lib) :
    Does F first starts h ((m >>= f) h) Post2 Lib := by
  change Does F first starts h (seq m f h) Post2 Lib
  unfold seq
  generalize hr : m h = r at hm
  obtain ⟨r, h'⟩ := r
  cases r with
  | ok a =>
    obtain ⟨h1, h2, h3, h4⟩ := hm
    have := hf a h' hr h1 h2 h3 h4
    dsimp only
    generalize f a h' = r2 at this
    obtain ⟨r2, h''⟩ := r2
    cases r2 with
    | ok b =>
      obtain ⟨k1, k2, k3, k4⟩ := this
      exact ⟨h1.trans k1, k2, k3, k4⟩
    | error x =>
      cases x with
      | lib x => exact ⟨h1.trans this.1, this.2⟩
      | user x => exact ⟨h1.trans this.1, this.2⟩
      | ub => exact this
  | error x => cases x <;> exact hm

theorem Does.post {h : Hist S C ε} {r : Except (Fail ε) α × Hist S C ε} {Post Post' : α → Hist S C ε → Prop}
    {Lib Lib' : Exc → Hist S C ε → Prop} (hd : Does F first starts h r Post Lib)
    (h1 : ∀ a h', h <+: h' → Calm h' → History F first starts h' → Post a h' → Post' a h') (h2 : ∀ x h', Lib x h' → Lib' x h') :
    Does F first starts h r Post' Lib' := by
  obtain ⟨r, h'⟩ := r
  cases r with
  | ok a =>
    obtain ⟨k1, k2, k3, k4⟩ := hd
    exact ⟨k1, k2, k3, h1 a h' k1 k2 k3 k4⟩
  | error x =>
    cases x with
    | lib x => exact ⟨hd.1, hd.2.1, hd.2.2.1, h2 x h' hd.2.2.2⟩
    | user x => exact hd
    | ub => exact hd

theorem ret_does {h : Hist S C ε} (hc : Calm h) (hh : History F first starts h) (a : α) {Post : α → Hist S C ε → Prop}
    {Lib : Exc → Hist S C ε → Prop} (hp : Post a h) : Does F first starts h (ret a h) Post Lib :=
  ⟨List.prefix_refl _, hc, hh, hp⟩

theorem ask_does {h : Hist S C ε} (hc : Calm h) (hh : History F first starts h) {f : Hist S C ε → Except ε α}
    {ev : Except ε α → Event S C ε} (h1 : Says F first h (ev (f h))) (h2 : Allowed starts h (ev (f h)))
    (h3 : ∀ a, (ev (.ok a)).thrown = none) (h4 : ∀ x, (ev (.error x)).thrown = some x) {Lib : Exc → Hist S C ε → Prop} :
    Does F first starts h (ask f ev h) (fun a h' => f h = .ok a ∧ h' = h ++ [ev (.ok a)]) Lib := by
  unfold ask
  cases hf : f h with
  | ok a =>
    rw [hf] at h1 h2
    exact ⟨List.prefix_append _ _, hc.snoc (h3 a), hh.snoc ⟨h1, h2, hc⟩, rfl, rfl⟩
  | error x =>
    rw [hf] at h1 h2
    exact ⟨List.prefix_append _ _, hh.snoc ⟨h1, h2, hc⟩, h, _, rfl, h4 x⟩

end

/-! ### The edges of a sequence of calls -/

variable [DecidableEq S] [LinearOrder C] [Add C] [Zero C] [OrderTop C]
variable {F : Fns S C ε} {first : Bool} {starts : List (S × C)}

/-- The children of `s` that a call gave. -/
def given (s : S) : Event S C ε → List (S × C)
  | .kids p (.ok l) => if p = s then l.filter fun x => decide (0 ≤ x.2) else []
  | .dist p t (.ok w) => if p = s ∧ 0 ≤ w then [(t, w)] else []
  | _ => []

/-- The problem with the children given so far; the heuristic does not matter. -/
def soFar (b : Bool) (h : Hist S C ε) : Problem S C := ⟨fun _ => false, fun s => .ok (h.flatMap (given s)), fun _ => ⊤, b⟩

theorem soFar_iff (b : Bool) (h : Hist S C ε) (s t : S) (w : C) : PEdge (soFar b h) s t w ↔
    0 ≤ w ∧ ((∃ l, Event.kids s (.ok l) ∈ h ∧ (t, w) ∈ l) ∨ Event.dist s t (.ok w) ∈ h) := by
  constructor
  · rintro ⟨l, hl, hm⟩
    cases hl
    obtain ⟨ev, he, hg⟩ := List.mem_flatMap.mp hm
    unfold given at hg
    split at hg
    · split at hg
      · rename_i hp
        subst hp
        obtain ⟨h1, h2⟩ := List.mem_filter.mp hg
        exact ⟨by simpa using h2, .inl ⟨_, he, h1⟩⟩
      · simp at hg
    · split at hg
      · rename_i hp
        obtain ⟨rfl, h0⟩ := hp
        simp only [List.mem_singleton, Prod.mk.injEq] at hg
        obtain ⟨rfl, rfl⟩ := hg
        exact ⟨h0, .inr he⟩
      · simp at hg
    · simp at hg
  · rintro ⟨h0, ⟨l, h1, h2⟩ | h1⟩
    · refine ⟨_, rfl, List.mem_flatMap.mpr ⟨_, h1, ?_⟩⟩
      simp [given, h2, h0]
    · refine ⟨_, rfl, List.mem_flatMap.mpr ⟨_, h1, ?_⟩⟩
      simp [given, h0]

theorem soFar_mono {b : Bool} {h h' : Hist S C ε} (hp : h <+: h') {s t : S} {w : C} (he : PEdge (soFar b h) s t w) :
    PEdge (soFar b h') s t w := by
  rw [soFar_iff] at he ⊢
  obtain ⟨h0, ⟨l, h1, h2⟩ | h1⟩ := he
  · exact ⟨h0, .inl ⟨l, hp.subset h1, h2⟩⟩
  · exact ⟨h0, .inr (hp.subset h1)⟩

theorem soFar_nonneg {b : Bool} {h : Hist S C ε} : ∀ (s t : S) (w : C), PEdge (soFar b h) s t w → 0 ≤ w :=
  fun s t w he => ((soFar_iff b h s t w).mp he).1

theorem soFar_offered {b : Bool} {h : Hist S C ε} (hh : History F first starts h) {s t : S} {w : C}
    (he : PEdge (soFar b h) s t w) : Offered h s t w := by
  obtain ⟨h0, h1 | h1⟩ := (soFar_iff b h s t w).mp he
  · exact .inl h1
  · obtain ⟨pre, post, rfl⟩ := List.append_of_mem h1
    obtain ⟨pre', rfl⟩ := (hh pre _ post rfl).allowed
    obtain ⟨l, h2, h3⟩ := (hh pre' (.valid s t (.ok true)) (.dist s t (.ok w) :: post) (by simp)).allowed
    refine .inr ⟨⟨l, ?_, h3⟩, ?_, h1, h0⟩
    · simp [h2]
    · simp

theorem RWalk.mono {e1 e2 : S → S → C → Prop} (h : ∀ s t w, e1 s t w → e2 s t w) {l : List S} {c : C}
    (hw : RWalk starts e1 l c) : RWalk starts e2 l c := by
  induction hw with
  | start h => exact .start h
  | step _ he ih => exact .step ih (h _ _ _ he)

theorem ElemInv.mono {P P' : Problem S C} (hh : P.h = P'.h) (he : ∀ s t w, PEdge P s t w → PEdge P' s t w)
    {ex : S → Option (C × Option S)} {e : Elem S C} (h : ElemInv P starts ex e) : ElemInv P' starts ex e := by
  rcases h with ⟨h1, h2, h3⟩ | ⟨p, l, cold, w, h1, h2, h3, h4, h5, h6, h7⟩
  · exact .inl ⟨h1, h2, by rw [h3, hh]⟩
  · exact .inr ⟨p, l, cold, w, h1, RWalk.mono he h2, h3, h4, he _ _ _ h5, h6, by rw [h7, hh]⟩

theorem ExInv.mono {P P' : Problem S C} (he : ∀ s t w, PEdge P s t w → PEdge P' s t w)
    {ex : S → Option (C × Option S)} (h : ExInv P starts ex) : ExInv P' starts ex := by
  obtain ⟨⟨τ, N, h1, h2⟩, h3⟩ := h
  refine ⟨⟨τ, N, h1, fun s c b hs => ?_⟩, h3⟩
  obtain ⟨⟨l, l1, l2⟩, k2, k3⟩ := h2 s c b hs
  refine ⟨⟨l, RWalk.mono he l1, l2⟩, k2, fun p hp => ?_⟩
  obtain ⟨cold, w, cp, bp, q1, q2⟩ := k3 p hp
  exact ⟨cold, w, cp, bp, he _ _ _ q1, q2⟩

theorem QInv.mono {P P' : Problem S C} (hl : P.limit = P'.limit) (hh : P.h = P'.h) (he : ∀ s t w, PEdge P s t w → PEdge P' s t w)
    {st : St S C} (h : QInv P starts st) : QInv P' starts st :=
  ⟨fun hl' => h.members (hl.trans hl'), fun e hm => ElemInv.mono hh he (h.elems e hm)⟩

/-! ### The search, without the values of the heuristic -/

/-- An element with the value it would have if the heuristic were infinite. -/
def plain (e : Elem S C) : Elem S C :=
  { e with value := match e.back with
      | none => ⊤
      | some _ => e.cost + ⊤ }

/-- The state of the search with all values replaced. -/
def plainSt (st : St S C) : St S C := { st with queue := st.queue.map plain }

theorem plainSt_push (b : Bool) (h : Hist S C ε) (st : St S C) (e : Elem S C) :
    plainSt (push (dups b) st e) = push (soFar b h) (plainSt st) (plain e) := rfl

theorem covered_plain (st : St S C) (t : S) (k : C) : Covered (plainSt st) t k ↔ Covered st t k := by
  constructor
  · rintro (h | ⟨e, he, h⟩)
    · exact .inl h
    · obtain ⟨e', he', rfl⟩ := List.mem_map.mp he
      exact .inr ⟨e', he', h⟩
  · rintro (h | ⟨e, he, h⟩)
    · exact .inl h
    · exact .inr ⟨plain e, List.mem_map_of_mem he, h⟩

/-- `h'` has nothing but calls of the heuristic after `h`. -/
def HeurOnly (h h' : Hist S C ε) : Prop := ∃ l, h' = h ++ l ∧ ∀ e ∈ l, ∃ s a, e = .heur s a

theorem HeurOnly.refl (h : Hist S C ε) : HeurOnly h h := ⟨[], by simp, by simp⟩

theorem HeurOnly.snoc {h h' : Hist S C ε} {s : S} {a : Except ε C} (hh : HeurOnly (h ++ [.heur s a]) h') : HeurOnly h h' := by
  obtain ⟨l, rfl, h2⟩ := hh
  refine ⟨.heur s a :: l, by simp, fun e he => ?_⟩
  rcases List.mem_cons.mp he with rfl | he
  · exact ⟨_, _, rfl⟩
  · exact h2 e he

theorem HeurOnly.edge {b : Bool} {h h' : Hist S C ε} (hh : HeurOnly h h') {s t : S} {w : C} (he : PEdge (soFar b h') s t w) :
    PEdge (soFar b h) s t w := by
  obtain ⟨l, rfl, h2⟩ := hh
  rw [soFar_iff] at he ⊢
  obtain ⟨h0, ⟨k, h1, h3⟩ | h1⟩ := he
  · refine ⟨h0, .inl ⟨k, ?_, h3⟩⟩
    rcases List.mem_append.mp h1 with h1 | h1
    · exact h1
    · obtain ⟨s', a, h4⟩ := h2 _ h1; cases h4
  · refine ⟨h0, .inr ?_⟩
    rcases List.mem_append.mp h1 with h1 | h1
    · exact h1
    · obtain ⟨s', a, h4⟩ := h2 _ h1; cases h4

/-- The functions and the code belong together. -/
structure Fits (F : Fns S C ε) (W : World S C ε) : Prop where
  goal : W.goal = F.goal
  heur : W.heur = F.heur

theorem askHeur_does {W : World S C ε} (hF : Fits F W) {h : Hist S C ε} (hc : Calm h) (hh : History F first starts h) {s : S}
    (hk : Known starts h s) {Lib : Exc → Hist S C ε → Prop} :
    Does F first starts h (ask (fun h => W.heur h s) (Event.heur s) h) (fun a h' => h' = h ++ [.heur s (.ok a)]) Lib :=
  (ask_does hc hh (f := fun h => W.heur h s) (ev := Event.heur s) (show _ = _ by rw [hF.heur]) hk (fun _ => rfl) (fun _ => rfl)).post
    (fun a h' _ _ _ h4 => h4.2) (fun _ _ h => h)

theorem askGoal_does {W : World S C ε} (hF : Fits F W) {h : Hist S C ε} (hc : Calm h) (hh : History F first starts h) {s : S}
    (hk : Known starts h s) {Lib : Exc → Hist S C ε → Prop} :
    Does F first starts h (ask (fun h => W.goal h s) (Event.goal s) h) (fun a h' => h' = h ++ [.goal s (.ok a)]) Lib :=
  (ask_does hc hh (f := fun h => W.goal h s) (ev := Event.goal s) (show _ = _ by rw [hF.goal]) hk (fun _ => rfl) (fun _ => rfl)).post
    (fun a h' _ _ _ h4 => h4.2) (fun _ _ h => h)

theorem pushStarts_does {W : World S C ε} (hF : Fits F W) (l : List (S × C)) (hl : ∀ x ∈ l, x ∈ starts) (st : St S C) {h : Hist S C ε}
    (hc : Calm h) (hh : History F first starts h) {Lib : Exc → Hist S C ε → Prop} :
    Does F first starts h (pushStarts W st l h) (fun st' h' => HeurOnly h h' ∧ ∀ h0 : Hist S C ε, plainSt st' =
      l.foldl (pushStart (soFar W.limit h0)) (plainSt st)) Lib := by
  induction l generalizing st h with
  | nil => exact ret_does hc hh _ ⟨.refl h, fun _ => rfl⟩
  | cons a l ih =>
    unfold pushStarts
    split
    · rename_i hb
      refine (ih (fun x hx => hl x (by simp [hx])) st hc hh).post (fun st' h' _ _ _ h4 => ⟨h4.1, fun h0 => ?_⟩) (fun _ _ h => h)
      rw [h4.2 h0, List.foldl_cons]
      congr 1
      unfold pushStart
      rw [if_pos (show queueBetter (soFar W.limit h0) (plainSt st).members a.1 a.2 = true from hb)]
    · rename_i hb
      have ha : a ∈ starts := hl a (by simp)
      refine (askHeur_does hF hc hh (.inl ⟨a.2, ha⟩)).bind (fun v h' _ _ hc' hh' hv => ?_)
      subst hv
      refine (ih (fun x hx => hl x (by simp [hx])) _ hc' hh').post (fun st' h' _ _ _ h4 => ⟨h4.1.snoc, fun h0 => ?_⟩) (fun _ _ h => h)
      rw [h4.2 h0, List.foldl_cons]
      congr 1
      unfold pushStart
      rw [if_neg (show ¬ queueBetter (soFar W.limit h0) (plainSt st).members a.1 a.2 = true from hb)]
      rfl

theorem pushKids_does {W : World S C ε} (hF : Fits F W) (s : S) (c : C) (l : List (S × C)) (st : St S C) {h : Hist S C ε}
    (hl : ∀ x ∈ l, Known starts h x.1)
    (hc : Calm h) (hh : History F first starts h) {Lib : Exc → Hist S C ε → Prop} :
    Does F first starts h (pushKids W s c st l h) (fun st' h' => HeurOnly h h' ∧ ∀ h0 : Hist S C ε, plainSt st' =
      l.foldl (pushKid (soFar W.limit h0) s c) (plainSt st)) Lib := by
  induction l generalizing st h with
  | nil => exact ret_does hc hh _ ⟨.refl h, fun _ => rfl⟩
  | cons a l ih =>
    unfold pushKids
    split
    · rename_i hb
      refine (ih st (fun x hx => hl x (by simp [hx])) hc hh).post (fun st' h' _ _ _ h4 => ⟨h4.1, fun h0 => ?_⟩) (fun _ _ h => h)
      rw [h4.2 h0, List.foldl_cons]
      congr 1
      unfold pushKid
      rw [if_pos (show (exploredBetter (plainSt st).explored a.1 (c + a.2) || queueBetter (soFar W.limit h0) (plainSt st).members a.1 (c + a.2)) = true
        from hb)]
    · rename_i hb
      refine (askHeur_does hF hc hh (hl a (by simp))).bind (fun v h' _ hpre hc' hh' hv => ?_)
      subst hv
      refine (ih _ (fun x hx => (hl x (by simp [hx])).mono hpre) hc' hh').post (fun st' h' _ _ _ h4 => ⟨h4.1.snoc, fun h0 => ?_⟩) (fun _ _ h => h)
      rw [h4.2 h0, List.foldl_cons]
      congr 1
      unfold pushKid
      rw [if_neg (show ¬ (exploredBetter (plainSt st).explored a.1 (c + a.2) || queueBetter (soFar W.limit h0) (plainSt st).members a.1 (c + a.2)) = true
        from hb)]
      rfl

/-! ### The children -/

/-- The children of `s` were asked for. -/
def Asked (h : Hist S C ε) (s : S) : Prop := (∃ a, Event.kids s a ∈ h) ∨ ∃ a, Event.gen s a ∈ h

theorem Asked.mono {h h' : Hist S C ε} (hp : h <+: h') {s : S} (ha : Asked h s) : Asked h' s := by
  rcases ha with ⟨a, ha⟩ | ⟨a, ha⟩
  · exact .inl ⟨a, hp.subset ha⟩
  · exact .inr ⟨a, hp.subset ha⟩

/-- The last call gave a negative distance. -/
def Negative (x : Exc) (h : Hist S C ε) : Prop := x = .invalidArgument ∧ ∃ pre s t w, h = pre ++ [.dist s t (.ok w)] ∧ w < 0

/-- What is known of the children of `s` after they were computed. -/
def KidsPost (h : Hist S C ε) (s : S) (l : List (S × C)) (h' : Hist S C ε) : Prop :=
  (∀ x ∈ l, PEdge (soFar true h') s x.1 x.2) ∧
  (∀ p t w, PEdge (soFar true h') p t w → PEdge (soFar true h) p t w ∨ (p = s ∧ (t, w) ∈ l)) ∧ Asked h' s

theorem soFar_flag (b b' : Bool) (h : Hist S C ε) (s t : S) (w : C) : PEdge (soFar b h) s t w ↔ PEdge (soFar b' h) s t w := by
  rw [soFar_iff, soFar_iff]

/-- The children of a state, computed right after the goal check refused it. -/
def KidsSpec (F : Fns S C ε) (first : Bool) (starts : List (S × C)) (W : World S C ε) : Prop :=
  ∀ (s : S) (h : Hist S C ε), Calm h → History F first starts h → (∃ pre, h = pre ++ [.goal s (.ok false)]) →
    Does F first starts h (W.children s h) (KidsPost h s) Negative

/-- The costs of children are not negative. -/
def Nonneg (F : Fns S C ε) : Prop := ∀ h s l, F.kids h s = .ok l → ∀ x ∈ l, 0 ≤ x.2

theorem kids1 (hnn : Nonneg F) (b : Bool) : KidsSpec F true starts (world1 F b) := by
  intro s h hc hh hg
  refine (ask_does (first := true) hc hh (f := fun h => F.kids h s) (ev := Event.kids s) ⟨rfl, rfl⟩ hg (fun _ => rfl) (fun _ => rfl)).post
    (fun l h' _ _ _ ⟨h4, h5⟩ => ?_) (fun _ _ h => h)
  subst h5
  refine ⟨fun x hx => (soFar_iff _ _ _ _ _).mpr ⟨hnn h s l h4 x hx, .inl ⟨l, by simp, hx⟩⟩, fun p t w he => ?_, .inl ⟨.ok l, by simp⟩⟩
  rw [soFar_iff] at he
  obtain ⟨h0, ⟨k, h1, h3⟩ | h1⟩ := he
  · rcases List.mem_append.mp h1 with h1 | h1
    · exact .inl ((soFar_iff _ _ _ _ _).mpr ⟨h0, .inl ⟨k, h1, h3⟩⟩)
    · simp only [List.mem_singleton, Event.kids.injEq, Except.ok.injEq] at h1
      obtain ⟨rfl, rfl⟩ := h1
      exact .inr ⟨rfl, h3⟩
  · rcases List.mem_append.mp h1 with h1 | h1
    · exact .inl ((soFar_iff _ _ _ _ _).mpr ⟨h0, .inr h1⟩)
    · simp at h1

theorem soFar_snoc {h : Hist S C ε} {ev : Event S C ε} (h1 : ∀ s l, ev ≠ .kids s (.ok l)) (h2 : ∀ s t w, ev ≠ .dist s t (.ok w)) {p t : S} {w : C}
    (he : PEdge (soFar true (h ++ [ev])) p t w) : PEdge (soFar true h) p t w := by
  rw [soFar_iff] at he ⊢
  obtain ⟨h0, ⟨k, h3, h4⟩ | h3⟩ := he
  · refine ⟨h0, .inl ⟨k, ?_, h4⟩⟩
    rcases List.mem_append.mp h3 with h3 | h3
    · exact h3
    · simp only [List.mem_singleton] at h3; exact absurd h3.symm (h1 _ _)
  · refine ⟨h0, .inr ?_⟩
    rcases List.mem_append.mp h3 with h3 | h3
    · exact h3
    · simp only [List.mem_singleton] at h3; exact absurd h3.symm (h2 _ _ _)

theorem filterKids_does (s : S) (l0 : List S) (l : List S) (hl : ∀ x ∈ l, x ∈ l0) {h : Hist S C ε} (hc : Calm h)
    (hh : History F false starts h) (hg : Event.gen s (.ok l0) ∈ h) :
    Does F false starts h (filterKids F.valid F.dist s l h) (KidsPost h s) Negative := by
  induction l generalizing h with
  | nil => exact ret_does hc hh _ ⟨by simp, fun p t w he => .inl he, .inr ⟨_, hg⟩⟩
  | cons t l ih =>
    have hl' : ∀ x ∈ l, x ∈ l0 := fun x hx => hl x (by simp [hx])
    unfold filterKids
    refine (ask_does (first := false) hc hh (f := fun h => F.valid h s t) (ev := Event.valid s t) ⟨rfl, rfl⟩ ⟨l0, hg, hl t (by simp)⟩
      (fun _ => rfl) (fun _ => rfl)).bind (fun v h1 _ hp1 hc1 hh1 hv => ?_)
    obtain ⟨_, rfl⟩ := hv
    cases v with
    | false =>
      refine (ih hl' hc1 hh1 (hp1.subset hg)).post (fun ks h' _ _ _ ⟨k1, k2, k3⟩ => ⟨k1, fun p t' w he => ?_, k3⟩) (fun _ _ h => h)
      rcases k2 p t' w he with he | he
      · exact .inl (soFar_snoc (by simp) (by simp) he)
      · exact .inr he
    | true =>
      refine (ask_does (first := false) hc1 hh1 (f := fun h => F.dist h s t) (ev := Event.dist s t) ⟨rfl, rfl⟩ ⟨h, rfl⟩
        (fun _ => rfl) (fun _ => rfl)).bind (fun d h2 _ hp2 hc2 hh2 hd => ?_)
      obtain ⟨_, rfl⟩ := hd
      refine Does.bind (Post := fun k h' => k = (t, d) ∧ 0 ≤ d ∧ h' = h ++ [.valid s t (.ok true)] ++ [.dist s t (.ok d)]) ?_ (fun k h3 _ hp3 hc3 hh3 hk => ?_)
      · unfold mkStateWithCost
        split
        · rename_i hneg
          exact ⟨List.prefix_refl _, hc2, hh2, rfl, _, s, t, d, rfl, hneg⟩
        · rename_i hneg
          exact ⟨List.prefix_refl _, hc2, hh2, rfl, not_lt.mp hneg, rfl⟩
      · obtain ⟨rfl, h0, rfl⟩ := hk
        refine (ih hl' hc3 hh3 (hp2.subset (hp1.subset hg))).bind (fun ks h4 _ hp4 hc4 hh4 hks => ?_)
        obtain ⟨k1, k2, k3⟩ := hks
        refine ret_does hc4 hh4 _ ⟨?_, ?_, k3⟩
        · intro x hx
          rcases List.mem_cons.mp hx with rfl | hx
          · exact (soFar_iff _ _ _ _ _).mpr ⟨h0, .inr (hp4.subset (by simp))⟩
          · exact k1 x hx
        · intro p t' w he
          rcases k2 p t' w he with he | ⟨h5, h6⟩
          · rw [soFar_iff] at he
            obtain ⟨h7, ⟨k, h8, h9⟩ | h8⟩ := he
            · refine .inl ((soFar_iff _ _ _ _ _).mpr ⟨h7, .inl ⟨k, ?_, h9⟩⟩)
              simpa using h8
            · rcases List.mem_append.mp h8 with h8 | h8
              · refine .inl ((soFar_iff _ _ _ _ _).mpr ⟨h7, .inr ?_⟩)
                simpa using h8
              · simp only [List.mem_singleton, Event.dist.injEq, Except.ok.injEq] at h8
                obtain ⟨rfl, rfl, rfl⟩ := h8
                exact .inr ⟨rfl, by simp⟩
          · exact .inr ⟨h5, by simp [h6]⟩

theorem kids2 (b : Bool) : KidsSpec F false starts (world2 F b) := by
  intro s h hc hh hg
  refine (ask_does (first := false) hc hh (f := fun h => F.gen h s) (ev := Event.gen s) ⟨rfl, rfl⟩ hg (fun _ => rfl) (fun _ => rfl)).bind
    (fun l h1 _ _ hc1 hh1 hl => ?_)
  obtain ⟨_, rfl⟩ := hl
  refine (filterKids_does s l l (fun _ h => h) hc1 hh1 (by simp)).post (fun ks h' _ _ _ ⟨k1, k2, k3⟩ => ⟨k1, fun p t' w he => ?_, k3⟩) (fun _ _ h => h)
  rcases k2 p t' w he with he | he
  · exact .inl (soFar_snoc (by simp) (by simp) he)
  · exact .inr he

/-! ### The loop -/

/-- The invariant of the search loop. -/
structure LInv (b : Bool) (starts : List (S × C)) (st : St S C) (h : Hist S C ε) : Prop where
  ex : ExInv (soFar b h) starts st.explored
  q : QInv (soFar b h) starts (plainSt st)
  asked : ∀ s, st.explored s ≠ none → Event.goal s (.ok false) ∈ h ∧ Asked h s
  starts : ∀ s c, (s, c) ∈ starts → ∃ k, Covered st s k
  closed : ∀ s t w, PEdge (soFar b h) s t w → ∃ k, Covered st t k

theorem LInv.known {b : Bool} {st : St S C} {h : Hist S C ε} (hi : LInv b starts st h) (hh : History F first starts h) {e : Elem S C}
    (he : e ∈ st.queue) : Known starts h e.state := by
  rcases hi.q.elems (plain e) (List.mem_map_of_mem he) with ⟨_, h2, _⟩ | ⟨p, l, cold, w, _, _, _, _, h5, _, _⟩
  · exact .inl ⟨_, h2⟩
  · exact .inr ⟨p, w, soFar_offered hh h5⟩

theorem erased_plain {b : Bool} {h : Hist S C ε} {st : St S C} (hq : QInv (soFar b h) starts (plainSt st)) {top : Elem S C}
    {rest : List (Elem S C)} (hp : Pop st.queue top rest) (hl : b = true) (s : S) (c : C)
    (hm : erased (dups b) st.members top.state s = some c) : ∃ e ∈ rest.map plain, e.state = s ∧ e.cost = c := by
  unfold erased at hm
  rw [if_pos (show (dups b : Problem S C).limit = true from hl)] at hm
  by_cases hs : s = top.state
  · subst hs; rw [upd_self] at hm; cases hm
  · rw [upd_ne _ _ _ _ hs] at hm
    obtain ⟨e, he, h1, h2⟩ := hq.members hl s c hm
    obtain ⟨e', he', rfl⟩ := List.mem_map.mp he
    rcases hp.mem_cases he' with rfl | he'
    · exact absurd h1.symm hs
    · exact ⟨plain e', List.mem_map_of_mem he', h1, h2⟩

theorem LInv.skip {W : World S C ε} {st : St S C} {h : Hist S C ε} (hi : LInv W.limit starts st h) {top : Elem S C} {rest : List (Elem S C)}
    (hp : Pop st.queue top rest) (hb : exploredBetter st.explored top.state top.cost = true) :
    LInv W.limit starts ⟨rest, erased (dups W.limit) st.members top.state, st.explored⟩ h := by
  have hcov : ∀ t k, Covered st t k → Covered ⟨rest, erased (dups W.limit) st.members top.state, st.explored⟩ t k := by
    intro t k hc
    rcases hc with hc | ⟨e, he, h1, h2⟩
    · exact .inl hc
    · rcases hp.mem_cases he with rfl | he
      · exact .inl (by rw [← h1]; exact ((exploredBetter_iff _ _ _).mp hb).mono h2)
      · exact .inr ⟨e, he, h1, h2⟩
  refine ⟨hi.ex, ⟨fun hl s c hm => erased_plain hi.q hp hl s c hm, fun e he => ?_⟩, hi.asked, ?_, ?_⟩
  · obtain ⟨e', he', rfl⟩ := List.mem_map.mp he
    exact hi.q.elems (plain e') (List.mem_map_of_mem (hp.mem_rest he'))
  · intro s c hs
    obtain ⟨k, hk⟩ := hi.starts s c hs
    exact ⟨k, hcov _ _ hk⟩
  · intro s t w he
    obtain ⟨k, hk⟩ := hi.closed s t w he
    exact ⟨k, hcov _ _ hk⟩

variable [CostLaws C]

theorem LInv.accepted {W : World S C ε} {st : St S C} {h : Hist S C ε} (hi : LInv W.limit starts st h) {top : Elem S C}
    {rest : List (Elem S C)} (hp : Pop st.queue top rest) (hb : exploredBetter st.explored top.state top.cost = false) :
    ExInv (soFar W.limit h) starts (accept W st top rest).explored ∧
    QInv (soFar W.limit h) starts (plainSt (accept W st top rest)) ∧
    (∀ t k, Covered st t k → Covered (accept W st top rest) t k) := by
  have htop := hi.q.elems (plain top) (List.mem_map_of_mem hp.mem_top)
  refine ⟨hi.ex.accept soFar_nonneg (top := plain top) hb htop, ⟨fun hl s c hm => erased_plain hi.q hp hl s c hm, fun e he => ?_⟩, ?_⟩
  · obtain ⟨e', he', rfl⟩ := List.mem_map.mp he
    exact (hi.q.elems (plain e') (List.mem_map_of_mem (hp.mem_rest he'))).upd (top := plain top) hb
  · intro t k hc
    rcases hc with hc | ⟨e, he, h1, h2⟩
    · exact .inl (hc.upd hb)
    · rcases hp.mem_cases he with rfl | he
      · exact .inl ⟨_, _, by rw [← h1]; exact upd_self _ _ _, h2⟩
      · exact .inr ⟨e, he, h1, h2⟩

/-- The expansion of an accepted element. -/
theorem expand_does {W : World S C ε} (hF : Fits F W) (hK : KidsSpec F first starts W) {st : St S C} {h : Hist S C ε}
    (hi : LInv W.limit starts st h) (hc : Calm h) (hh : History F first starts h) {top : Elem S C}
    {rest : List (Elem S C)} (hp : Pop st.queue top rest) (hb : exploredBetter st.explored top.state top.cost = false)
    (hc1 : Calm (h ++ [.goal top.state (.ok false)])) (hh1 : History F first starts (h ++ [.goal top.state (.ok false)])) :
    Does F first starts (h ++ [.goal top.state (.ok false)]) (expandTop W top (accept W st top rest) (h ++ [.goal top.state (.ok false)]))
      (fun st' h' => LInv W.limit starts st' h') Negative := by
  obtain ⟨a1, a2, a3⟩ := hi.accepted hp hb
  unfold expandTop
  refine (hK top.state _ hc1 hh1 ⟨h, rfl⟩).bind (fun l h2 _ hp2 hc2 hh2 hl => ?_)
  obtain ⟨l1, l2, l3⟩ := hl
  refine (pushKids_does hF top.state top.cost l (accept W st top rest) (fun x hx => .inr ⟨_, _, soFar_offered hh2 (l1 x hx)⟩) hc2 hh2).post
    (fun st' h3 hp3 hc3 hh3 ⟨ho, hst⟩ => ?_) (fun _ _ h => h)
  have hpre : h <+: h2 := (List.prefix_append _ _).trans hp2
  have hm2 : ∀ s t w, PEdge (soFar W.limit h) s t w → PEdge (soFar W.limit h2) s t w := fun _ _ _ => soFar_mono hpre
  have hm3 : ∀ s t w, PEdge (soFar W.limit h2) s t w → PEdge (soFar W.limit h3) s t w := fun _ _ _ => soFar_mono hp3
  have b1 : ExInv (soFar W.limit h2) starts (accept W st top rest).explored := ExInv.mono hm2 a1
  have b2 : QInv (soFar W.limit h2) starts (plainSt (accept W st top rest)) := QInv.mono (P := soFar W.limit h) (P' := soFar W.limit h2) rfl rfl hm2 a2
  have hent : ∃ l, RWalk starts (PEdge (soFar W.limit h2)) (top.state :: l) top.cost ∧ (top.state :: l).Nodup ∧
      ∀ q ∈ top.state :: l, Le (plainSt (accept W st top rest)).explored q top.cost := by
    obtain ⟨τ, N, _, hent⟩ := b1.entry
    exact (hent top.state top.cost top.back (upd_self _ _ _)).1
  obtain ⟨k1, k2, k3, k4⟩ := kids_inv l _ b2 hent (fun x hx => (soFar_flag true W.limit h2 _ _ _).mp (l1 x hx))
  rw [← hst h2] at k1 k2 k3 k4
  have k3' : ∀ t k, Covered (accept W st top rest) t k → Covered st' t k := fun t k hk =>
    (covered_plain st' t k).mp (k3 t k ((covered_plain _ t k).mpr hk))
  have k2' : st'.explored = (accept W st top rest).explored := k2
  refine ⟨by rw [k2']; exact ExInv.mono hm3 b1, QInv.mono (P := soFar W.limit h2) (P' := soFar W.limit h3) rfl rfl hm3 k1, ?_, ?_, ?_⟩
  · intro s hs
    rw [k2'] at hs
    by_cases h0 : s = top.state
    · rw [h0]
      exact ⟨hp3.subset (hp2.subset (by simp)), l3.mono hp3⟩
    · have := hi.asked s (by unfold accept at hs; dsimp only at hs; rwa [upd_ne _ _ _ _ h0] at hs)
      exact ⟨hp3.subset (hpre.subset this.1), (this.2.mono hpre).mono hp3⟩
  · intro s c hs
    obtain ⟨k, hk⟩ := hi.starts s c hs
    exact ⟨k, k3' _ _ (a3 _ _ hk)⟩
  · intro s t w he
    rcases l2 s t w ((soFar_flag W.limit true h2 _ _ _).mp (ho.edge he)) with he | ⟨rfl, hm⟩
    · have he' := soFar_snoc (by simp) (by simp) he
      obtain ⟨k, hk⟩ := hi.closed s t w ((soFar_flag true W.limit h _ _ _).mp he')
      exact ⟨k, k3' _ _ (a3 _ _ hk)⟩
    · exact ⟨_, (covered_plain st' _ _).mp (k4 (t, w) hm)⟩

/-- The state of a search between two iterations. -/
structure Good (F : Fns S C ε) (first b : Bool) (starts : List (S × C)) (a : St S C × Hist S C ε) : Prop where
  inv : LInv b starts a.1 a.2
  calm : Calm a.2
  right : History F first starts a.2

theorem Good.step {W : World S C ε} (hF : Fits F W) (hK : KidsSpec F first starts W) {a b : St S C × Hist S C ε}
    (hg : Good F first W.limit starts a) (hs : Step W a b) : Good F first W.limit starts b ∧ a.2 <+: b.2 := by
  obtain ⟨hi, hc, hh⟩ := hg
  cases hs with
  | skip hp hb => exact ⟨⟨hi.skip hp hb, hc, hh⟩, List.prefix_refl _⟩
  | @expand st st' h h1 h2 top rest hp hb hgo hk =>
    have h3 := askGoal_does hF hc hh (hi.known hh hp.mem_top) (Lib := fun _ _ => False)
    rw [hgo] at h3
    obtain ⟨h4, h5, h6, rfl⟩ := h3
    have h7 := expand_does hF hK hi hc hh hp hb h5 h6
    dsimp only at hk
    rw [hk] at h7
    obtain ⟨h8, h9, h10, h11⟩ := h7
    exact ⟨⟨h11, h9, h10⟩, (List.prefix_append _ _).trans h8⟩

theorem Good.steps {W : World S C ε} (hF : Fits F W) (hK : KidsSpec F first starts W) {a b : St S C × Hist S C ε}
    (hg : Good F first W.limit starts a) (hs : Steps W a b) : Good F first W.limit starts b ∧ a.2 <+: b.2 := by
  induction hs with
  | refl => exact ⟨hg, List.prefix_refl _⟩
  | step h1 _ ih =>
    obtain ⟨h2, h3⟩ := hg.step hF hK h1
    obtain ⟨h4, h5⟩ := ih h2
    exact ⟨h4, h3.trans h5⟩

end CRU.Astar.Callbacks
