import Verif.Prng.Props
/-
  C42: the xorshift generators lose nothing and never reach the all-zero state.
-/
namespace CRU.Prng

theorem xor_cancel_right {w : Nat} {a b c : BitVec w} (h : a ^^^ c = b ^^^ c) : a = b := by
  have := congrArg (fun x => x ^^^ c) h
  simpa [BitVec.xor_assoc] using this

theorem xs_word_inj {w k l : Nat} (hk : 0 < k) (hl : 0 < l) {a b c : BitVec w} {m : Nat}
    (h : (a ^^^ (a <<< k)) ^^^ c ^^^ ((a ^^^ (a <<< k)) >>> l) ^^^ (c >>> m) =
      (b ^^^ (b <<< k)) ^^^ c ^^^ ((b ^^^ (b <<< k)) >>> l) ^^^ (c >>> m)) : a = b := by
  have h1 := xor_cancel_right h
  rw [BitVec.xor_assoc, BitVec.xor_comm c, ← BitVec.xor_assoc, BitVec.xor_assoc (b ^^^ b <<< k), BitVec.xor_comm c,
    ← BitVec.xor_assoc (b ^^^ b <<< k)] at h1
  exact xor_shl_inj hk (xor_shr_inj hl (xor_cancel_right h1))

/-- C42: one draw from XorShift128Plus is reversible. -/
theorem xs128_step_injective : Function.Injective (fun st => (xs128.next st).2) := by
  rintro ⟨a, b⟩ ⟨a', b'⟩ h
  have h1 : b = b' := congrArg Prod.fst h
  subst h1
  have h2 := congrArg Prod.snd h
  have h3 : a = a' := xs_word_inj (k := 23) (l := 18) (by omega) (by omega) h2
  rw [h3]

theorem xs1024_step_injective : Function.Injective (fun st => (xs1024.next st).2) := by
  rintro ⟨s, p⟩ ⟨s', p'⟩ h
  have hp : p + 1 = p' + 1 := congrArg Xs1024.p h
  have hp : p = p' := by
    have hc : ∀ a b : Fin 16, a + 1 = b + 1 → a = b := by decide
    exact hc p p' hp
  subst hp
  have hs : s.set (p + 1 : Fin 16).val _ (p + 1 : Fin 16).isLt = s'.set (p + 1 : Fin 16).val _ (p + 1 : Fin 16).isLt :=
    congrArg Xs1024.state h
  have hne : (p + 1 : Fin 16).val ≠ p.val := by
    have : ∀ q : Fin 16, (q + 1).val ≠ q.val := by decide
    exact this p
  have hother : ∀ i (hi : i < 16), i ≠ (p + 1 : Fin 16).val → s[i] = s'[i] := by
    intro i hi hine
    have := congrArg (fun v : Vector U64 16 => v[i]) hs
    simp only at this
    rwa [Vector.getElem_set_ne _ _ (Ne.symm hine), Vector.getElem_set_ne _ _ (Ne.symm hine)] at this
  have h0 : s[p] = s'[p] := hother p.val p.isLt (Ne.symm hne)
  have h1 := congrArg (fun v : Vector U64 16 => v[(p + 1 : Fin 16).val]) hs
  simp only [Vector.getElem_set_self] at h1
  rw [h0] at h1
  have h2 : s[p + 1] = s'[p + 1] := xs_word_inj (k := 31) (l := 11) (by omega) (by omega) h1
  congr 1
  apply Vector.ext
  intro i hi
  by_cases hip : i = (p + 1 : Fin 16).val
  · subst hip; exact h2
  · exact hother i hi hip

/-- States that are only reached from themselves are never reached. -/
theorem avoids {σ : Type} (m : Machine σ) (bad : σ → Prop)
    (hbad : ∀ st, bad (m.next st).2 → bad st) (hc : ∀ s, ¬ bad (m.construct s)) (hs : ∀ st s, ¬ bad (m.seed st s)) (s : U64)
    (history : List Call) : ¬ bad (m.after s history) := by
  have hd : ∀ n st, ¬ bad st → ¬ bad (m.discard n st) := by
    intro n
    induction n with
    | zero => intro st h; exact h
    | succ n ih => intro st h; rw [discard_succ]; exact ih _ fun hb => h (hbad _ hb)
  have key : ∀ cs st, ¬ bad st → ¬ bad (m.run cs st).2 := by
    intro cs
    induction cs with
    | nil => intro st h; exact h
    | cons c cs ih =>
      intro st h
      cases c with
      | draw => exact ih _ fun hb => h (hbad _ hb)
      | discard z => exact ih _ (hd _ _ h)
      | seed x => exact ih _ (hs st x)
  exact key history _ (hc s)

theorem splitMix_two_ne (s : U64) (m n : Nat) (hm : m < 16) (hn : n < 16) (hmn : m ≠ n) : splitMix.output s m ≠ splitMix.output s n := by
  intro h
  have hbig : 16 < all64 := by rw [all64_eq]; decide
  exact hmn (splitMix_output_inj s (by omega) (by omega) h)

theorem xs128Seed_eq (s : U64) : xs128Seed s = (splitMix.output s 0, splitMix.output s 1) := rfl

/-- C42: a XorShift128Plus generator is never in the all-zero state, whatever its seed and history. -/
theorem C42_xs128_never_zero (s : U64) (history : List Call) : xs128.after s history ≠ (0, 0) := by
  have hseed : ∀ s, ¬ xs128Seed s = (0, 0) := by
    intro s h
    rw [xs128Seed_eq, Prod.mk.injEq] at h
    exact splitMix_two_ne s 0 1 (by omega) (by omega) (by omega) (h.1.trans h.2.symm)
  refine avoids xs128 (fun st => st = (0, 0)) (fun st h => ?_) hseed (fun _ s => hseed s) s history
  exact xs128_step_injective (a₁ := st) (a₂ := (0, 0)) (h.trans (by decide))

example : xs128.after 42 [.draw, .discard 3, .seed 0, .draw] = (xs128.next (xs128.construct 0)).2 := by decide +kernel

theorem xs1024Fill_get (s : U64) : (xs1024Fill s)[0] = splitMix.output s 0 ∧ (xs1024Fill s)[1] = splitMix.output s 1 := ⟨rfl, rfl⟩

theorem xs1024_zero_back (st : Xs1024) (h : ∀ i : Fin 16, (xs1024.next st).2.state[i] = 0) : ∀ i : Fin 16, st.state[i] = 0 := by
  have hz : ∀ p : Fin 16, (xs1024.next ⟨Vector.replicate 16 0, p⟩).2 = ⟨Vector.replicate 16 0, p + 1⟩ := by decide +kernel
  have : (xs1024.next st).2 = (xs1024.next ⟨Vector.replicate 16 0, st.p⟩).2 := by
    rw [hz]
    have e : (xs1024.next st).2 = ⟨(xs1024.next st).2.state, st.p + 1⟩ := rfl
    rw [e]
    congr 1
    apply Vector.ext
    intro i hi
    rw [Vector.getElem_replicate]
    exact h ⟨i, hi⟩
  have := xs1024_step_injective this
  rw [this]
  intro i
  simp

/-- C42: a XorShift1024Star generator is never in the all-zero state, whatever its seed and history. -/
theorem C42_xs1024_never_zero (s : U64) (history : List Call) : ∃ i : Fin 16, (xs1024.after s history).state[i] ≠ 0 := by
  have hseed : ∀ s, ¬ ∀ i : Fin 16, (xs1024Fill s)[i] = 0 := by
    intro s h
    obtain ⟨h0, h1⟩ := xs1024Fill_get s
    exact splitMix_two_ne s 0 1 (by omega) (by omega) (by omega) (h0.symm.trans ((h 0).trans ((h 1).symm.trans h1)))
  have := avoids xs1024 (fun st => ∀ i : Fin 16, st.state[i] = 0) xs1024_zero_back hseed (fun _ s => hseed s) s history
  push Not at this
  exact this

theorem discard_succ' {σ : Type} (m : Machine σ) (n : Nat) (s : σ) : m.discard (n + 1) s = (m.next (m.discard n s)).2 := by
  induction n generalizing s with
  | zero => rfl
  | succ n ih => rw [discard_succ, ih, ← discard_succ]

theorem run_draws {σ : Type} (m : Machine σ) (n : Nat) (s : σ) : m.run (List.replicate n .draw) s =
    ((List.range n).map (fun i => (m.next (m.discard i s)).1), m.discard n s) := by
  induction n with
  | zero => rfl
  | succ n ih =>
    rw [List.replicate_succ', run_append, ih, List.range_succ, List.map_append, discard_succ']
    rfl

/-- After `k` draws that all gave 0, the `k` words written are 0. -/
theorem xs1024_zero_outputs (k : Nat) (hk : k ≤ 16) (st : Xs1024) (h : ∀ i < k, (xs1024.next (xs1024.discard i st)).1 = 0) :
    ∀ j : Nat, 1 ≤ j → j ≤ k → (xs1024.discard k st).state[st.p + Fin.ofNat 16 j] = 0 := by
  induction k with
  | zero => intro j h1 h2; omega
  | succ k ih =>
    intro j h1 h2
    have hp : (xs1024.discard k st).p + 1 = st.p + Fin.ofNat 16 (k + 1) := by
      rw [xs1024_discard_p]
      apply Fin.ext
      simp only [Fin.val_add, Fin.val_ofNat, Fin.val_one]
      omega
    have ho := h k (by omega)
    rw [discard_succ']
    generalize xs1024.discard k st = t at *
    generalize hx : t.state[t.p + 1] ^^^ t.state[t.p + 1] <<< 31 = s1
    have hx0 : (s1 ^^^ t.state[t.p] ^^^ s1 >>> 11 ^^^ t.state[t.p] >>> 30) = 0 := by
      subst hx
      refine mul_inj (c := 1181783497276652981) (d := 0xbb91f78bdac4c89d) (by decide) ?_
      exact ho.trans (BitVec.zero_mul (x := (1181783497276652981 : U64))).symm
    have hst : (xs1024.next t).2.state = t.state.set (t.p + 1 : Fin 16).val 0 (t.p + 1 : Fin 16).isLt := by
      show t.state.set (t.p + 1 : Fin 16).val _ (t.p + 1 : Fin 16).isLt = _
      rw [hx, hx0]
    rw [hst]
    by_cases hj : j = k + 1
    · subst hj
      have hg : ∀ q : Fin 16, t.p + 1 = q → (t.state.set (t.p + 1 : Fin 16).val 0 (t.p + 1 : Fin 16).isLt)[q] = 0 := by
        rintro q rfl
        exact Vector.getElem_set_self (t.p + 1 : Fin 16).isLt
      exact hg _ hp
    · have hne : (t.p + 1 : Fin 16).val ≠ (st.p + Fin.ofNat 16 j).val := by
        rw [hp]
        simp only [Fin.val_add, Fin.val_ofNat]
        omega
      show (t.state.set (t.p + 1 : Fin 16).val 0 (t.p + 1 : Fin 16).isLt)[(st.p + Fin.ofNat 16 j).val] = 0
      rw [Vector.getElem_set_ne _ _ hne]
      exact ih (by omega) (fun i hi => h i (by omega)) j h1 (by omega)

/-- C42: among any 16 consecutive outputs of a XorShift1024Star generator at least one is not zero, whatever its seed and history. -/
theorem C42_xs1024_outputs_not_stuck (s : U64) (history : List Call) :
    ∃ o ∈ xs1024.outputs s history (List.replicate 16 .draw), o ≠ 0 := by
  by_contra hno
  push Not at hno
  obtain ⟨q, hq⟩ := C42_xs1024_never_zero s (history ++ List.replicate 16 .draw)
  apply hq
  unfold Machine.outputs at hno
  rw [run_draws] at hno
  have haft : xs1024.after s (history ++ List.replicate 16 .draw) = xs1024.discard 16 (xs1024.after s history) := by
    unfold Machine.after
    rw [run_append, run_draws]
  rw [haft]
  have hz := xs1024_zero_outputs 16 le_rfl (xs1024.after s history) (fun i hi => hno _ (List.mem_map.mpr ⟨i, List.mem_range.mpr hi, rfl⟩))
  obtain ⟨j, h1, h2, h3⟩ : ∃ j : Nat, 1 ≤ j ∧ j ≤ 16 ∧ (xs1024.after s history).p + Fin.ofNat 16 j = q := by
    have : ∀ p q : Fin 16, ∃ j : Fin 17, 1 ≤ j.val ∧ p + Fin.ofNat 16 j.val = q := by decide
    obtain ⟨j, h1, h2⟩ := this (xs1024.after s history).p q
    exact ⟨j.val, h1, by omega, h2⟩
  rw [← h3]
  exact hz j h1 h2

/-! ### Periods -/

/-- C42: every XorShift128Plus and XorShift1024Star sequence is periodic from its first output on. -/
theorem C42_xorshift_periodic (s : U64) :
    (∃ T > 0, ∀ n, xs128.output s (n + T) = xs128.output s n) ∧ ∃ T > 0, ∀ n, xs1024.output s (n + T) = xs1024.output s n := by
  have key : ∀ {σ : Type} [Finite σ] (m : Machine σ), Function.Injective (fun st => (m.next st).2) →
      ∃ T > 0, ∀ n, m.output s (n + T) = m.output s n := by
    intro σ _ m hinj
    have hit : ∀ n st, m.discard n st = (fun st => (m.next st).2)^[n] st := by
      intro n
      induction n with
      | zero => intro st; rfl
      | succ n ih => intro st; rw [discard_succ, ih]; rfl
    obtain ⟨T, hT, hp⟩ := Function.Injective.mem_periodicPts hinj (m.construct s)
    refine ⟨T, hT, fun n => ?_⟩
    unfold Machine.output
    rw [hit, hit, Function.iterate_add_apply, hp]
  haveI : Finite U64 := Finite.of_injective (fun x : U64 => x.toFin) (fun x y h => BitVec.eq_of_toNat_eq (congrArg Fin.val h))
  haveI : Finite Xs1024 := Finite.of_injective (fun x : Xs1024 => ((fun i : Fin 16 => x.state[i]), x.p)) (by
    rintro ⟨a, p⟩ ⟨b, q⟩ h
    simp only [Prod.mk.injEq] at h
    obtain ⟨h1, rfl⟩ := h
    congr 1
    apply Vector.ext
    intro i hi
    exact congrFun h1 ⟨i, hi⟩)
  exact ⟨key xs128 xs128_step_injective, key xs1024 xs1024_step_injective⟩

end CRU.Prng
