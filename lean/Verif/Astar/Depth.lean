import Verif.Astar.Props
import Mathlib.Logic.Hydra
import Mathlib.Tactic.Abel
/-
  Why a search over finitely many states ends even if the costs of the edges change all the time: every accepted element stands for a walk that
  repeats no state, so its length is bounded; an accepted element is replaced in the queue by finitely many longer ones.
-/
namespace CRU.Astar
set_option linter.unusedSectionVars false

variable {S C : Type} [DecidableEq S] [LinearOrder C] [Add C] [Zero C] [OrderTop C] [CostLaws C]
variable {starts : List (S × C)} {edge edge' : S → S → C → Prop}

/-- A queued element stands for a walk of `d` states. -/
def ElemD (starts : List (S × C)) (edge : S → S → C → Prop) (ex : S → Option (C × Option S)) (e : Elem S C) (d : Nat) : Prop :=
  ((e.state, e.cost) ∈ starts ∧ d = 1) ∨
  (∃ p l cold w, RWalk starts edge (p :: l) cold ∧ (p :: l).Nodup ∧ (∀ q ∈ p :: l, Le ex q cold) ∧ edge p e.state w ∧ e.cost = cold + w ∧
    d = l.length + 2)

theorem RWalk.weaken (he : ∀ s t w, edge s t w → edge' s t w) {l : List S} {c : C} (h : RWalk starts edge l c) : RWalk starts edge' l c := by
  induction h with
  | start h => exact .start h
  | step _ hs ih => exact .step ih (he _ _ _ hs)

theorem ElemD.mono (he : ∀ s t w, edge s t w → edge' s t w) {ex : S → Option (C × Option S)} {e : Elem S C} {d : Nat}
    (h : ElemD starts edge ex e d) : ElemD starts edge' ex e d := by
  rcases h with h | ⟨p, l, cold, w, h1, h2, h3, h4, h5⟩
  · exact .inl h
  · exact .inr ⟨p, l, cold, w, h1.weaken he, h2, h3, he _ _ _ h4, h5⟩

theorem ElemD.upd {ex : S → Option (C × Option S)} {top : Elem S C} (hb : exploredBetter ex top.state top.cost = false) {e : Elem S C} {d : Nat}
    (h : ElemD starts edge ex e d) : ElemD starts edge (CRU.Astar.upd ex top.state (some (top.cost, top.back))) e d := by
  rcases h with h | ⟨p, l, cold, w, h1, h2, h3, h4, h5⟩
  · exact .inl h
  · exact .inr ⟨p, l, cold, w, h1, h2, fun q hq => (h3 q hq).upd hb, h4, h5⟩

/-- The budget of a queue: for every element the number of states that can still follow on the walk that it stands for. An expanded element is
replaced by any number of elements with smaller numbers (`Relation.CutExpand`). -/
def Fuel (starts : List (S × C)) (edge : S → S → C → Prop) (N : Nat) (ex : S → Option (C × Option S)) (q : List (Elem S C)) (m : Multiset Nat) : Prop :=
  ∃ ds : List (Elem S C × Nat), (ds.map Prod.fst).Perm q ∧ (∀ x ∈ ds, ElemD starts edge ex x.1 x.2) ∧
    m = ((ds.map fun x => N + 1 - x.2 : List Nat) : Multiset Nat)

theorem Fuel.mono (he : ∀ s t w, edge s t w → edge' s t w) {N : Nat} {m : Multiset Nat} {ex : S → Option (C × Option S)} {q : List (Elem S C)}
    (h : Fuel starts edge N ex q m) : Fuel starts edge' N ex q m := by
  obtain ⟨ds, h1, h2, h3⟩ := h
  exact ⟨ds, h1, fun x hx => (h2 x hx).mono he, h3⟩

theorem Fuel.start (N : Nat) (ex : S → Option (C × Option S)) {q : List (Elem S C)} (h : ∀ e ∈ q, ∃ d, ElemD starts edge ex e d) :
    ∃ m, Fuel starts edge N ex q m := by
  induction q with
  | nil => exact ⟨_, [], List.Perm.refl _, by simp, rfl⟩
  | cons e q ih =>
    obtain ⟨_, ds, h1, h2, _⟩ := ih (fun e he => h e (by simp [he]))
    obtain ⟨d, hd⟩ := h e (by simp)
    refine ⟨_, (e, d) :: ds, by simpa using h1, ?_, rfl⟩
    intro x hx
    rcases List.mem_cons.mp hx with rfl | hx
    · exact hd
    · exact h2 x hx

theorem Fuel.pop {N : Nat} {m : Multiset Nat} {ex : S → Option (C × Option S)} {q rest : List (Elem S C)} {top : Elem S C}
    (h : Fuel starts edge N ex q m) (hp : q.Perm (top :: rest)) :
    ∃ d m', ElemD starts edge ex top d ∧ Fuel starts edge N ex rest m' ∧ m = (N + 1 - d) ::ₘ m' := by
  obtain ⟨ds, h1, h2, h3⟩ := h
  have htop : top ∈ ds.map Prod.fst := (h1.trans hp).mem_iff.mpr (by simp)
  obtain ⟨⟨e, d⟩, hd, rfl⟩ := List.mem_map.mp htop
  obtain ⟨a, b, rfl⟩ := List.append_of_mem hd
  refine ⟨d, _, h2 (e, d) (by simp), ⟨a ++ b, ?_, fun x hx => h2 x ?_, rfl⟩, ?_⟩
  · have h4 : ((a ++ (e, d) :: b).map Prod.fst).Perm (e :: (a ++ b).map Prod.fst) := by
      simp only [List.map_append, List.map_cons]
      exact List.perm_middle
    exact ((h4.symm.trans (h1.trans hp))).cons_inv
  · rcases List.mem_append.mp hx with hx | hx <;> simp [hx]
  · rw [h3, Multiset.cons_coe, Multiset.coe_eq_coe]
    simp only [List.map_append, List.map_cons]
    exact List.perm_middle

theorem Fuel.upd {N : Nat} {m : Multiset Nat} {ex : S → Option (C × Option S)} {q : List (Elem S C)} {top : Elem S C}
    (hb : exploredBetter ex top.state top.cost = false) (h : Fuel starts edge N ex q m) :
    Fuel starts edge N (CRU.Astar.upd ex top.state (some (top.cost, top.back))) q m := by
  obtain ⟨ds, h1, h2, h3⟩ := h
  exact ⟨ds, h1, fun x hx => (h2 x hx).upd hb, h3⟩

theorem Fuel.append {N d : Nat} {m : Multiset Nat} {ex : S → Option (C × Option S)} {q new : List (Elem S C)} (h : Fuel starts edge N ex q m)
    (hn : ∀ e ∈ new, ElemD starts edge ex e d) : Fuel starts edge N ex (new ++ q) (Multiset.replicate new.length (N + 1 - d) + m) := by
  obtain ⟨ds, h1, h2, h3⟩ := h
  refine ⟨new.map (fun e => (e, d)) ++ ds, ?_, ?_, ?_⟩
  · rw [List.map_append, List.map_map]
    have : new.map (Prod.fst ∘ fun e => (e, d)) = new := by simp [Function.comp_def]
    rw [this]
    exact h1.append_left new
  · intro x hx
    rcases List.mem_append.mp hx with hx | hx
    · obtain ⟨e, he, rfl⟩ := List.mem_map.mp hx
      exact hn e he
    · exact h2 x hx
  · rw [List.map_append, ← Multiset.coe_add, h3, List.map_map]
    congr 1
    rw [← Multiset.coe_replicate]
    congr 1
    simp [Function.comp_def]

/-- Less budget. -/
abbrev Less (m' m : Multiset Nat) : Prop := Relation.CutExpand (· < ·) m' m

theorem less_wf : WellFounded Less := wellFounded_lt.cutExpand

theorem less_cons (a : Nat) (m : Multiset Nat) : Less m (a ::ₘ m) := ⟨0, a, by simp, by rw [add_zero, add_comm, Multiset.singleton_add]⟩

theorem pushKids_queue (P : Problem S C) (s : S) (c : C) (kids : List (S × C)) (st : St S C) :
    ∃ new, (kids.foldl (pushKid P s c) st).queue = new ++ st.queue ∧ ∀ e ∈ new, ∃ x ∈ kids, e.state = x.1 ∧ e.cost = c + x.2 := by
  induction kids generalizing st with
  | nil => exact ⟨[], rfl, by simp⟩
  | cons k l ih =>
    obtain ⟨new, h1, h3⟩ := ih (pushKid P s c st k)
    rw [List.foldl_cons, h1]
    unfold pushKid
    split
    · refine ⟨new, rfl, fun e he => ?_⟩
      obtain ⟨x, hx, h4⟩ := h3 e he
      exact ⟨x, by simp [hx], h4⟩
    · refine ⟨new ++ [⟨k.1, some s, c + k.2, c + k.2 + P.h k.1⟩], by simp [push], fun e he => ?_⟩
      rcases List.mem_append.mp he with he | he
      · obtain ⟨x, hx, h4⟩ := h3 e he
        exact ⟨x, by simp [hx], h4⟩
      · simp only [List.mem_singleton] at he
        subst he
        exact ⟨k, by simp, rfl, rfl⟩

/-- One expansion: less fuel than before. -/
theorem Fuel.expand (hnn : ∀ s t w, edge s t w → (0 : C) ≤ w) {N : Nat} {m : Multiset Nat} {F : List S} (hF : F.length ≤ N) (hs : ∀ x ∈ starts, x.1 ∈ F)
    (hcl : ∀ s ∈ F, ∀ t w, edge s t w → t ∈ F) {ex : S → Option (C × Option S)} {q rest : List (Elem S C)} {top : Elem S C}
    (h : Fuel starts edge N ex q m) (hp : q.Perm (top :: rest)) (hb : exploredBetter ex top.state top.cost = false)
    {new : List (Elem S C)} (hnew : ∀ e ∈ new, ∃ w, edge top.state e.state w ∧ e.cost = top.cost + w) :
    ∃ m', Less m' m ∧ Fuel starts edge N (CRU.Astar.upd ex top.state (some (top.cost, top.back))) (new ++ rest) m' := by
  obtain ⟨d, m', h1, h2, rfl⟩ := h.pop hp
  have hwalk : ∃ l, RWalk starts edge (top.state :: l) top.cost ∧ (top.state :: l).Nodup ∧ (∀ q ∈ l, Le ex q top.cost) ∧ d = l.length + 1 := by
    rcases h1 with ⟨k1, k2⟩ | ⟨p, l, cold, w, k1, k2, k3, k4, k5, k6⟩
    · exact ⟨[], .start k1, by simp, by simp, k2⟩
    · have hle : cold ≤ top.cost := by rw [k5]; exact CostLaws.le_add _ _ (hnn _ _ _ k4)
      refine ⟨p :: l, by rw [k5]; exact .step k1 k4, ?_, fun q hq => (k3 q hq).mono hle, by simpa using k6⟩
      refine List.nodup_cons.mpr ⟨fun hmem => ?_, k2⟩
      have := (k3 _ hmem).mono hle
      rw [← exploredBetter_iff, hb] at this
      cases this
  obtain ⟨l, l1, l2, l3, l4⟩ := hwalk
  have hsub : ∀ x ∈ top.state :: l, x ∈ F := by
    have : ∀ {l : List S} {c : C}, RWalk starts edge l c → ∀ x ∈ l, x ∈ F := by
      intro l c hw
      induction hw with
      | start hx => intro x hm; simp only [List.mem_singleton] at hm; subst hm; exact hs _ hx
      | step _ he ih =>
        intro x hm
        rcases List.mem_cons.mp hm with rfl | hm
        · exact hcl _ (ih _ (by simp)) _ _ he
        · exact ih x hm
    exact this l1
  have hdN : d ≤ N := by
    have := (List.subperm_of_subset l2 hsub).length_le
    simp only [List.length_cons] at this
    omega
  have hD : ∀ e ∈ new, ElemD starts edge (CRU.Astar.upd ex top.state (some (top.cost, top.back))) e (d + 1) := by
    intro e he
    obtain ⟨w, hw1, hw2⟩ := hnew e he
    refine .inr ⟨top.state, l, top.cost, w, l1, l2, fun q hq => ?_, hw1, hw2, by omega⟩
    rcases List.mem_cons.mp hq with rfl | hq
    · exact ⟨_, _, upd_self _ _ _, le_refl _⟩
    · exact (l3 q hq).upd hb
  refine ⟨_, ?_, (h2.upd hb).append hD⟩
  refine ⟨Multiset.replicate new.length (N + 1 - (d + 1)), N + 1 - d, fun x hx => ?_, ?_⟩
  · rw [Multiset.eq_of_mem_replicate hx]; omega
  · rw [← Multiset.singleton_add]
    abel

end CRU.Astar
