import Verif.Totp.Build
/-
  C81: the outcome of the construction does not depend on the number of turns that its loops are given. Proofs.
-/
namespace CRU.Totp
open Ext

variable {n : Nat}

/-- `r'` is what becomes of `r`. -/
def Later {α : Type} (r r' : Option α) : Prop := ∀ a, r = some a → r' = some a

theorem Later.refl {α : Type} (r : Option α) : Later r r := fun _ h => h

theorem Later.none {α : Type} (r : Option α) : Later Option.none r := fun _ h => by simp at h

theorem Later.then {α β : Type} {r r' : Run α} {f f' : α → Run β} (h : Later r r') (hf : ∀ a, Later (f a) (f' a)) :
    Later (r.then f) (r'.then f') := by
  cases r with
  | none => exact Later.none _
  | some x =>
    rw [h x rfl]
    cases x with
    | ok a => exact hf a
    | throw e => exact Later.refl _
    | ub => exact Later.refl _

theorem Later.ite {α : Type} {p : Prop} [Decidable p] {a a' b b' : Option α} (ha : Later a a') (hb : Later b b') :
    Later (if p then a else b) (if p then a' else b') := by
  split_ifs
  · exact ha
  · exact hb

open Classical in
theorem bisectForward_later [NeZero n] (e : Setup n) : ∀ (k k' : Nat), k ≤ k' → ∀ b bv a av,
    Later (bisectForward e k b bv a av) (bisectForward e k' b bv a av)
  | 0, _, _, _, _, _, _ => Later.none _
  | k + 1, 0, h, _, _, _, _ => by omega
  | k + 1, k' + 1, h, b, bv, a, av => by
    have ih := bisectForward_later e k k' (by omega)
    unfold bisectForward
    exact Later.ite (Later.ite (ih _ _ _ _) (ih _ _ _ _)) (Later.refl _)

open Classical in
theorem forward_later [NeZero n] (e : Setup n) {N N' : Nat} (hN : N ≤ N') : ∀ (k k' : Nat), k ≤ k' → ∀ s,
    Later (forward e N k s) (forward e N' k' s)
  | 0, _, _, _ => Later.none _
  | k + 1, 0, h, _ => by omega
  | k + 1, k' + 1, h, s => by
    have ih := forward_later e hN k k' (by omega)
    unfold forward
    dsimp only
    refine Later.ite (Later.refl _) (Later.ite (Later.refl _) (Later.ite ?_ (ih _)))
    cases s.rev with
    | nil => exact Later.refl _
    | cons b bs =>
      dsimp only
      have h1 := bisectForward_later e N N' hN b.pos b.vel (s.next e.dt s.remaining).pos (e.clip s.pos (s.next e.dt s.remaining))
      cases hx : bisectForward e N b.pos b.vel (s.next e.dt s.remaining).pos (e.clip s.pos (s.next e.dt s.remaining)) with
      | none => exact Later.none _
      | some r =>
        rw [h1 r hx]
        exact Later.then (Later.refl _) (fun st => Later.ite (Later.refl _) (ih _))

theorem integrateForward_later [NeZero n] (e : Setup n) {N N' : Nat} (hN : N ≤ N') (rev : List Step) (a : ℝ) :
    Later (integrateForward e N rev a) (integrateForward e N' rev a) := by
  unfold integrateForward
  cases rev with
  | nil => exact Later.refl _
  | cons b bs => exact forward_later e hN N N' hN _

open Classical in
theorem backward_later (e : Setup n) : ∀ (k k' : Nat), k ≤ k' → ∀ s, Later (backward e k s) (backward e k' s)
  | 0, _, _, _ => Later.none _
  | k + 1, 0, h, _ => by omega
  | k + 1, k' + 1, h, s => by
    have ih := backward_later e k k' (by omega)
    unfold backward
    dsimp only
    refine Later.ite (Later.ite (Later.ite (Later.refl _) (Later.then (Later.refl _) ?_)) ?_) (Later.refl _)
    · intro r
      cases r with
      | none => exact ih _
      | some r => exact Later.refl _
    · cases s.below with
      | nil => exact Later.refl _
      | cons b bs =>
        dsimp only
        refine Later.then (Later.refl _) ?_
        intro r
        cases r with
        | none => exact ih _
        | some r => exact Later.refl _

open Classical in
theorem integrateBackward_later (e : Setup n) {N N' : Nat} (hN : N ≤ N') (rev : List Step) (p v a : ℝ) :
    Later (integrateBackward e N rev p v a) (integrateBackward e N' rev p v a) := by
  unfold integrateBackward
  split
  · exact Later.ite (Later.refl _) (backward_later e N N' hN _)
  · exact Later.refl _

open Classical in
theorem nextAccSwitch_later (e : Setup n) : ∀ (k k' : Nat), k ≤ k' → ∀ p, Later (nextAccSwitch e k p) (nextAccSwitch e k' p)
  | 0, _, _, _ => Later.none _
  | k + 1, 0, h, _ => by omega
  | k + 1, k' + 1, h, p => by
    have ih := nextAccSwitch_later e k k' (by omega)
    unfold nextAccSwitch
    dsimp only
    exact Later.ite (Later.refl _) (Later.ite (Later.ite (Later.refl _) (ih _)) (Later.ite (Later.refl _) (ih _)))

open Classical in
theorem velScan_later [NeZero n] (e : Setup n) : ∀ (k k' : Nat), k ≤ k' → ∀ p b, Later (velScan e k p b) (velScan e k' p b)
  | 0, _, _, _, _ => Later.none _
  | k + 1, 0, h, _, _ => by omega
  | k + 1, k' + 1, h, p, b => by
    have ih := velScan_later e k k' (by omega)
    unfold velScan
    dsimp only
    exact Later.ite (ih _ _) (Later.refl _)

open Classical in
theorem velBisect_later [NeZero n] (e : Setup n) : ∀ (k k' : Nat), k ≤ k' → ∀ p b, Later (velBisect e k p b) (velBisect e k' p b)
  | 0, _, _, _, _ => Later.none _
  | k + 1, 0, h, _, _ => by omega
  | k + 1, k' + 1, h, p, b => by
    have ih := velBisect_later e k k' (by omega)
    unfold velBisect
    dsimp only
    exact Later.ite (Later.ite (ih _ _) (ih _ _)) (Later.refl _)

open Classical in
theorem nextVelSwitch_later [NeZero n] (e : Setup n) {N N' : Nat} (hN : N ≤ N') (p : ℝ) : Later (nextVelSwitch e N p) (nextVelSwitch e N' p) := by
  have h1 := velScan_later e N N' hN (p - 1 / 1000) false
  unfold nextVelSwitch
  cases hx : velScan e N (p - 1 / 1000) false with
  | none => exact Later.none _
  | some q =>
    rw [h1 q hx]
    refine Later.ite (Later.refl _) ?_
    have h2 := velBisect_later e N N' hN (q - 1 / 1000) q
    cases hy : velBisect e N (q - 1 / 1000) q with
    | none => exact Later.none _
    | some r => rw [h2 r hy]; exact Later.refl _

open Classical in
theorem accSwitchLoop_later (e : Setup n) {N N' : Nat} (hN : N ≤ N') : ∀ (k k' : Nat), k ≤ k' → ∀ s,
    Later (accSwitchLoop e N k s) (accSwitchLoop e N' k' s)
  | 0, _, _, _ => Later.none _
  | k + 1, 0, h, _ => by omega
  | k + 1, k' + 1, h, s => by
    have ih := accSwitchLoop_later e hN k k' (by omega)
    have h1 := nextAccSwitch_later e N N' hN s.pos
    unfold accSwitchLoop
    cases hx : nextAccSwitch e N s.pos with
    | none => exact Later.none _
    | some x =>
      rw [h1 x hx]
      cases x with
      | none => exact Later.refl _
      | some s' => exact Later.ite (ih _) (Later.refl _)

open Classical in
theorem velSwitchLoop_later [NeZero n] (e : Setup n) {N N' : Nat} (hN : N ≤ N') (ap : ℝ) : ∀ (k k' : Nat), k ≤ k' → ∀ s,
    Later (velSwitchLoop e N ap k s) (velSwitchLoop e N' ap k' s)
  | 0, _, _, _ => Later.none _
  | k + 1, 0, h, _ => by omega
  | k + 1, k' + 1, h, s => by
    have ih := velSwitchLoop_later e hN ap k k' (by omega)
    have h1 := nextVelSwitch_later e hN s.pos
    unfold velSwitchLoop
    cases hx : nextVelSwitch e N s.pos with
    | none => exact Later.none _
    | some x =>
      rw [h1 x hx]
      cases x with
      | none => exact Later.refl _
      | some s' => exact Later.ite (ih _) (Later.refl _)

open Classical in
theorem nextSwitch_later [NeZero n] (e : Setup n) {N N' : Nat} (hN : N ≤ N') (p : ℝ) : Later (nextSwitch e N p) (nextSwitch e N' p) := by
  have h1 := accSwitchLoop_later e hN N N' hN ⟨p, .fin 0, .fin 0, .fin 0⟩
  unfold nextSwitch
  cases hx : accSwitchLoop e N N ⟨p, .fin 0, .fin 0, .fin 0⟩ with
  | none => exact Later.none _
  | some a =>
    rw [h1 a hx]
    dsimp only
    have h2 := velSwitchLoop_later e hN a.2.pos N N' hN ⟨p, .fin 0, .fin 0, .fin 0⟩
    cases hy : velSwitchLoop e N a.2.pos N ⟨p, .fin 0, .fin 0, .fin 0⟩ with
    | none => exact Later.none _
    | some r => rw [h2 r hy]; exact Later.refl _

open Classical in
theorem mainLoop_later [NeZero n] (e : Setup n) {N N' : Nat} (hN : N ≤ N') : ∀ (k k' : Nat), k ≤ k' → ∀ rev a,
    Later (mainLoop e N k rev a) (mainLoop e N' k' rev a)
  | 0, _, _, _, _ => Later.none _
  | k + 1, 0, h, _, _ => by omega
  | k + 1, k' + 1, h, rev, a => by
    have ih := mainLoop_later e hN k k' (by omega)
    unfold mainLoop
    refine Later.then (integrateForward_later e hN _ _) (fun r => ?_)
    split_ifs
    · exact Later.refl _
    · cases r.1 with
      | nil => exact Later.refl _
      | cons b bs =>
        dsimp only
        have h1 := nextSwitch_later e hN b.pos
        cases hx : nextSwitch e N b.pos with
        | none => exact Later.none _
        | some x =>
          rw [h1 x hx]
          cases x with
          | none => exact Later.refl _
          | some s => exact Later.then (integrateBackward_later e hN _ _ _ _) (fun rev' => ih _ _)

theorem buildSteps_later [NeZero n] (e : Setup n) {N N' : Nat} (hN : N ≤ N') : Later (buildSteps e N) (buildSteps e N') :=
  Later.then (mainLoop_later e hN N N' hN _ _) (fun _ => Later.then (integrateBackward_later e hN _ _ _ _) (fun _ => Later.refl _))

open Classical in
theorem parametrize_later [NeZero n] {N N' : Nat} (hN : N ≤ N') (ws : List (V n)) (vmax amax : Fin n → Ext) (dev dt : Ext) :
    Later (parametrize N ws vmax amax dev dt) (parametrize N' ws vmax amax dev dt) :=
  Later.then (Later.refl _) (fun _ => Later.ite (Later.then (buildSteps_later _ hN) (fun _ => Later.refl _)) (Later.refl _))

end CRU.Totp
