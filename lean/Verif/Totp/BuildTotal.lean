import Verif.Totp.BuildPoly
import Verif.Totp.BuildMono
/-
  C81: the construction of a trajectory ends, at rest at the end of the path.
-/
namespace CRU.Totp
open Ext

variable {n : Nat}

/-! ### Proofs -/

/-- How the steps were made: forward up to `s1` (`s2` would have been the next), backward from the end to `f` (`m` would have been the next), joined
at `i`. -/
structure Made (e : Setup n) (a v : ℝ → ℝ) (steps : List Step) (s2 s1 : Step) (below : List Step) (m f : Step) (ts : List Step) (i : Step) :
    Prop where
  eq : steps = (s1 :: below).reverse ++ i :: f :: ts
  chain : (s2 :: s1 :: below).IsChain (fun c s => Ahead a v e.dt s c)
  first : (s1 :: below).getLast? = some ⟨0, 0⟩
  limit : ∀ x ∈ s1 :: below, x.vel ≤ v x.pos
  nonneg : ∀ x ∈ s1 :: below, 0 ≤ x.pos
  back : BackTrack e a m (f :: ts)
  cross : Crossing s1 s2 m f i

theorem getLast?_of_suffix {α : Type} {l l' : List α} (h : l <:+ l') (hne : l ≠ []) : l.getLast? = l'.getLast? := by
  obtain ⟨t, rfl⟩ := h
  rw [List.getLast?_append_of_ne_nil _ hne]

theorem isChain_of_suffix {α : Type} {R : α → α → Prop} {l l' : List α} (h : l <:+ l') (hc : l'.IsChain R) : l.IsChain R := by
  obtain ⟨t, rfl⟩ := h
  exact hc.right_of_append

variable [NeZero n] {e : Setup n} {a v : ℝ → ℝ} {a0 : ℝ}

open Classical in
theorem Flat.build (h : Flat e a v a0) : ∃ N steps s2 s1 below m f ts i, buildSteps e N = some (.ok steps) ∧
    Made e a v steps s2 s1 below m f ts i := by
  have hstep : 0 < e.dt * (1 / 2) * (e.dt * a0) := by have := h.dt; have := h.a0_pos; positivity
  obtain ⟨k, hk⟩ := exists_nat_gt (e.path.length / (e.dt * (1 / 2) * (e.dt * a0)))
  rw [div_lt_iff₀ hstep] at hk
  set s0 : Fwd := ⟨[⟨0, 0⟩], 0, 0, a 0, e.path.switching⟩ with hs0
  have htr : Track e a v [⟨0, 0⟩] := by
    refine ⟨.singleton _, rfl, ?_, ?_⟩
    · intro x hx
      rw [List.mem_singleton] at hx
      subst hx
      exact (h.v_pos 0 (le_refl 0)).le
    · intro x hx
      rw [List.mem_singleton] at hx
      subst hx
      exact le_refl 0
  set M0 := s0.remaining.length + k + 1 with hM0
  obtain ⟨o, b, rest, hf, ho, hb, hob, htrack⟩ := h.forward_total M0 (s0.remaining.length + k) s0 k (le_refl _) (by simpa [hs0] using hk)
    (le_refl 0) h.len.le (le_refl 0) rfl ⟨[], rfl⟩ htr M0 (by omega)
  -- the trajectory forward
  have hrev : ∀ s2 s1 below, (s2 :: s1 :: below) <:+ (o :: b :: rest) → Ahead a v e.dt s1 s2 ∧ 0 ≤ s1.pos := by
    intro s2 s1 below hsuf
    have hc : (o :: b :: rest).IsChain (fun c s => Ahead a v e.dt s c) := List.isChain_cons_cons.mpr ⟨hob, htrack.chain⟩
    refine ⟨(List.isChain_cons_cons.mp (isChain_of_suffix hsuf hc)).1, htrack.nonneg s1 ?_⟩
    rcases List.suffix_cons_iff.mp hsuf with hh | hh
    · have := (List.cons.inj hh).2
      rw [← this]
      exact List.mem_cons_self
    · exact hh.subset (by simp)
  have hfirst : ∀ x, (x : Step) :: [] <:+ (o :: b :: rest) → x = ⟨0, 0⟩ := by
    intro x hsuf
    have h1 := getLast?_of_suffix hsuf (by simp)
    rw [List.getLast?_cons_cons, htrack.first] at h1
    simpa using h1
  -- the trajectory backward
  obtain ⟨k', hk'⟩ := exists_nat_gt (e.path.length / (e.dt * (1 / 2) * (e.dt * a0)))
  rw [div_lt_iff₀ hstep] at hk'
  set M := M0 + (rest.length + k' + 2) with hM
  have hb0 : 0 ≤ b.pos := htrack.nonneg b List.mem_cons_self
  set t0 : Bwd := ⟨o, b, rest, [], e.path.length, 0, -(a e.path.length), .fin 0⟩ with ht0
  have hgap : (0 : ℝ) < lineThrough b o e.path.length := by
    have e1 : lineThrough b o e.path.length = b.vel * ((o.pos - e.path.length) / (o.pos - b.pos)) + o.vel * ((e.path.length - b.pos) / (o.pos - b.pos)) := by
      unfold lineThrough slopeOf
      have : o.pos - b.pos ≠ 0 := by linarith
      field_simp
      ring
    rw [e1]
    have p1 : 0 < (o.pos - e.path.length) / (o.pos - b.pos) := div_pos (by linarith) (by linarith)
    have p2 : 0 ≤ (e.path.length - b.pos) / (o.pos - b.pos) := div_nonneg (by linarith) (by linarith)
    have hov := hob.vel
    have hbv := hob.nonneg
    rcases hb.eq_or_lt with hb' | hb'
    · have : 0 < b.vel := by
        cases rest with
        | nil =>
          have := htrack.first
          simp only [List.getLast?_singleton, Option.some.injEq] at this
          rw [this] at hb'
          have := h.len
          exact absurd hb' this.ne
        | cons r rs => exact (List.isChain_cons_cons.mp htrack.chain).1.vel
      have := mul_pos this p1
      have := mul_nonneg hov.le p2
      linarith
    · have p3 : 0 < (e.path.length - b.pos) / (o.pos - b.pos) := div_pos (by linarith) (by linarith)
      have := mul_pos hov p3
      have := mul_nonneg hbv p1.le
      linarith
  have hback : ∃ out, backward e M t0 = some (.ok out) ∧ Joined e a v (o :: b :: rest) out := by
    obtain ⟨c1, c2⟩ := push_turn h hrev t0 (List.suffix_refl _) (le_refl 0) hb ho.le rfl hgap (.singleton _) rfl
    rw [show M = (M - 1) + 1 by omega, backward]
    rw [if_pos (Or.inr h.len.le), if_pos hb]
    dsimp only
    rw [if_neg c1]
    rcases c2 with ⟨c2, c3⟩ | ⟨out, c2, c3⟩
    · rw [c2]
      show ∃ out, backward e (M - 1) (t0.push e) = some (.ok out) ∧ _
      refine h.backward_total hrev hfirst (rest.length + k') (t0.push e) _ k' (le_refl _) ?_ c3 (M - 1) (by omega)
      have := (c3.behind.lt h).2.1
      dsimp only at this
      have ht : t0.pos = e.path.length := rfl
      linarith
    · rw [c2]
      exact ⟨out, rfl, c3⟩
  obtain ⟨out, hout, s2, s1, below, m, f, ts, i, e1, e2, e3, e4⟩ := hback
  have hMM : M0 ≤ M := by omega
  have hfwd : mainLoop e M M [⟨0, 0⟩] (e.acc 0 (.fin 0) true).real = some (.ok (o :: b :: rest)) := by
    rw [show M = (M - 1) + 1 by omega, mainLoop]
    rw [← show M = (M - 1) + 1 by omega]
    have : integrateForward e M [⟨0, 0⟩] (e.acc 0 (.fin 0) true).real = some (.ok (o :: b :: rest, true)) := by
      rw [h.acc_max 0 (le_refl 0)]
      exact forward_later e hMM M0 M hMM s0 _ hf
    rw [this]
    rfl
  refine ⟨M, out.reverse, s2, s1, below, m, f, ts, i, ?_, ?_⟩
  · unfold buildSteps
    rw [hfwd]
    show Run.then (integrateBackward e M (o :: b :: rest) _ _ _) _ = _
    have : integrateBackward e M (o :: b :: rest) e.path.length 0 (e.acc e.path.length (.fin 0) false).real = some (.ok out) := by
      unfold integrateBackward
      dsimp only
      rw [if_neg (not_lt.mpr hb), h.acc_min _ h.len.le]
      exact hout
    rw [this]
    rfl
  · have hsuf1 : (s1 :: below) <:+ (b :: rest) := by
      rcases List.suffix_cons_iff.mp e2 with hh | hh
      · have := (List.cons.inj hh).2
        rw [← this]
      · exact (List.suffix_cons s2 _).trans hh
    refine ⟨?_, isChain_of_suffix e2 (List.isChain_cons_cons.mpr ⟨hob, htrack.chain⟩), ?_, ?_, ?_, e3, e4⟩
    · rw [e1]
      simp
    · rw [getLast?_of_suffix hsuf1 (by simp), htrack.first]
    · exact fun x hx => htrack.limit x (hsuf1.subset hx)
    · exact fun x hx => htrack.nonneg x (hsuf1.subset hx)

end CRU.Totp
