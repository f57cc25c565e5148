import Verif.Parallel.Model
import Verif.Parallel.Spec
import Mathlib.Tactic.Linarith
import Mathlib.Tactic.Ring
import Mathlib.Data.List.Perm.Basic
import Mathlib.Data.List.Nodup
namespace CRU

theorem mem_irange {s e i : Int} : i ∈ irange s e ↔ s ≤ i ∧ i < e := by
  simp only [irange, List.mem_map, List.mem_range]
  constructor
  · rintro ⟨k, hk, rfl⟩; omega
  · intro ⟨h1, h2⟩; exact ⟨(i - s).toNat, by omega, by omega⟩

theorem irange_nodup (s e : Int) : (irange s e).Nodup := by
  unfold irange
  apply List.Nodup.map
  · intro a b h; simpa using h
  · exact List.nodup_range

theorem irange_self (s : Int) : irange s s = [] := by simp [irange]

theorem irange_append {s m e : Int} (h1 : s ≤ m) (h2 : m ≤ e) : irange s m ++ irange m e = irange s e := by
  obtain ⟨a, rfl⟩ : ∃ a : Nat, m = s + a := ⟨(m - s).toNat, by omega⟩
  obtain ⟨b, rfl⟩ : ∃ b : Nat, e = s + a + b := ⟨(e - (s + a)).toNat, by omega⟩
  have e1 : (s + (a : Int) - s).toNat = a := by omega
  have e2 : (s + (a : Int) + (b : Int) - (s + (a : Int))).toNat = b := by omega
  have e3 : (s + (a : Int) + (b : Int) - s).toNat = a + b := by omega
  simp only [irange, e1, e2, e3, List.range_add, List.map_append, List.map_map]
  congr 1
  apply List.map_congr_left
  intro k _
  simp; omega

theorem irange_succ {s e : Int} (h : s < e) : irange s e = s :: irange (s + 1) e := by
  rw [← irange_append (s := s) (m := s + 1) (e := e) (by omega) (by omega)]
  have : irange s (s + 1) = [s] := by
    simp only [irange]
    rw [show (s + 1 - s).toNat = 1 by omega]
    simp
  rw [this]; rfl

theorem length_irange (s e : Int) : (irange s e).length = (e - s).toNat := by simp [irange]

theorem irange_get (s e : Int) (k : Nat) (h : k < (irange s e).length) : (irange s e)[k] = s + k := by
  simp [irange]

theorem Interleaving.perm {α : Type} {ls : List (List α)} {tr : List α} (h : Interleaving ls tr) :
    tr.Perm ls.flatten := by
  induction h with
  | done h =>
    rename_i ls
    have : ls.flatten = [] := by simpa [List.flatten_eq_nil_iff] using h
    rw [this]
  | step i x t tr h rest ih =>
    rename_i ls
    obtain ⟨hi, hx⟩ := List.getElem?_eq_some_iff.mp h
    have h1 : ls = ls.take i ++ (x :: t) :: ls.drop (i + 1) := by
      rw [← hx]; simp
    have h2 : ls.set i t = ls.take i ++ t :: ls.drop (i + 1) := by
      rw [List.set_eq_take_append_cons_drop, if_pos hi]
    rw [h2] at ih
    rw [h1]
    simp only [List.flatten_append, List.flatten_cons] at ih ⊢
    exact (List.Perm.cons x ih).trans (by simpa using (List.perm_middle (a := x)).symm)

/-- Every family of threads can be run to completion. -/
theorem Interleaving.exists_run {α : Type} (l : List (List α)) : ∃ tr, Interleaving l tr := by
  generalize hn : l.flatten.length = n
  induction n generalizing l with
  | zero =>
    refine ⟨[], .done ?_⟩
    have : l.flatten = [] := List.length_eq_zero_iff.mp hn
    simpa [List.flatten_eq_nil_iff] using this
  | succ n ih =>
    have hne : l.flatten ≠ [] := by intro h; rw [h] at hn; simp at hn
    rw [Ne, List.flatten_eq_nil_iff] at hne
    push Not at hne
    obtain ⟨m, hm, hm0⟩ := hne
    obtain ⟨i, hi, rfl⟩ := List.getElem_of_mem hm
    obtain ⟨x, t, hxt⟩ := List.exists_cons_of_ne_nil hm0
    have h? : l[i]? = some (x :: t) := by rw [List.getElem?_eq_getElem hi, hxt]
    have hl : l = l.take i ++ (x :: t) :: l.drop (i + 1) := by rw [← hxt]; simp
    have hs : l.set i t = l.take i ++ t :: l.drop (i + 1) := by
      rw [List.set_eq_take_append_cons_drop, if_pos hi]
    obtain ⟨tr, htr⟩ := ih (l.set i t) (by
      rw [hs]; rw [hl] at hn
      simp only [List.flatten_append, List.flatten_cons, List.length_append, List.length_cons] at hn ⊢
      omega)
    exact ⟨x :: tr, .step i x t tr h? htr⟩

namespace Parallel

/-- Boundary between thread `t-1` and thread `t` (proof device). -/
def bnd (s e n t : Int) : Int := s + t * ((e - s) / n) + min t ((e - s) % n)

theorem bnd_zero (s e n : Int) (hn : 1 ≤ n) (_ : s ≤ e) : bnd s e n 0 = s := by
  have : 0 ≤ (e - s) % n := Int.emod_nonneg _ (by omega)
  simp [bnd]; omega

theorem bnd_last (s e n : Int) (hn : 1 ≤ n) (_ : s ≤ e) : bnd s e n n = e := by
  have h1 : (e - s) % n < n := Int.emod_lt_of_pos _ (by omega)
  have h2 := Int.mul_ediv_add_emod (e - s) n
  simp only [bnd]
  rw [min_eq_right (by omega)]
  linarith

theorem bnd_succ (s e n t : Int) :
    bnd s e n (t + 1) = bnd s e n t + (e - s) / n + (if t < (e - s) % n then 1 else 0) := by
  simp only [bnd]
  split
  · rw [min_eq_left (by omega), min_eq_left (by omega)]; ring
  · rw [min_eq_right (by omega), min_eq_right (by omega)]; ring

theorem bnd_mono (s e n t : Int) (hn : 1 ≤ n) (hse : s ≤ e) : bnd s e n t ≤ bnd s e n (t + 1) := by
  rw [bnd_succ]
  have : 0 ≤ (e - s) / n := Int.ediv_nonneg (by omega) (by omega)
  split <;> omega

theorem bnd_mono' (s e n : Int) (hn : 1 ≤ n) (hse : s ≤ e) (t : Int) (k : Nat) : bnd s e n t ≤ bnd s e n (t + k) := by
  induction k with
  | zero => simp
  | succ k ih => have := bnd_mono s e n (t + k) hn hse; push_cast; rw [← add_assoc]; omega

theorem bnd_range (s e n t : Int) (hn : 1 ≤ n) (hse : s ≤ e) (h0 : 0 ≤ t) (ht : t ≤ n) :
    s ≤ bnd s e n t ∧ bnd s e n t ≤ e := by
  constructor
  · have := bnd_mono' s e n hn hse 0 t.toNat
    rw [bnd_zero s e n hn hse] at this
    rwa [show (0 : Int) + (t.toNat : Int) = t by omega] at this
  · have := bnd_mono' s e n hn hse t (n - t).toNat
    rw [show t + ((n - t).toNat : Int) = n by omega, bnd_last s e n hn hse] at this
    exact this

theorem calcStatic_eq (s e n t : Int) (hs : InI64 s) (he : InI64 e) (hsz : InI64 (e - s)) (hse : s ≤ e) (hn : 1 ≤ n)
    (hnI : InI64 n) (hov : e - s < 9223372036854775807 ∨ 2 ≤ n) (h0 : 0 ≤ t) (ht : t < n) : calcStatic s e n t = .ok (bnd s e n t, bnd s e n (t + 1)) := by
  have hd : (e - s).tdiv n = (e - s) / n := Int.tdiv_eq_ediv_of_nonneg (by omega)
  have hm : (e - s).tmod n = (e - s) % n := Int.tmod_eq_emod_of_nonneg (by omega)
  have hq0 : 0 ≤ (e - s) / n := Int.ediv_nonneg (by omega) (by omega)
  have hr0 : 0 ≤ (e - s) % n := Int.emod_nonneg _ (by omega)
  have hrn : (e - s) % n < n := Int.emod_lt_of_pos _ (by omega)
  have hqr := Int.mul_ediv_add_emod (e - s) n
  have b0 := bnd_range s e n t hn hse h0 (by omega)
  have b1 := bnd_range s e n (t + 1) hn hse (by omega) (by omega)
  unfold calcStatic
  rw [if_neg (by omega), if_neg (by omega), if_neg (by omega), chk64_ok hsz]
  simp only [Res.ok_bind, hd, hm]
  unfold InI64 at *
  have hsz0 : 0 ≤ e - s := by omega
  have hqle : (e - s) / n ≤ e - s := by nlinarith
  by_cases hq1 : (e - s) / n + 1 ≤ 9223372036854775807
  · rw [chk64_ok ⟨by omega, hq1⟩]
    simp only [Res.ok_bind]
    have hbs := bnd_succ s e n t
    split
    · rename_i hlt
      rw [if_pos hlt] at hbs
      have hb : bnd s e n t = s + t * ((e - s) / n + 1) := by
        simp only [bnd]; rw [min_eq_left (by omega)]; ring
      have hoff0 : 0 ≤ t * ((e - s) / n + 1) := mul_nonneg h0 (by omega)
      rw [chk64_ok ⟨by omega, by omega⟩]
      simp only [Res.ok_bind]
      rw [chk64_ok (x := s + _) ⟨by omega, by omega⟩]
      simp only [Res.ok_bind]
      rw [chk64_ok ⟨by omega, by omega⟩]
      simp only [Res.ok_bind, Res.pure_eq, Res.ok.injEq, Prod.mk.injEq]
      omega
    · rename_i hlt
      rw [if_neg hlt] at hbs
      have hb : bnd s e n t = s + (e - s) % n * ((e - s) / n + 1) + (t - (e - s) % n) * ((e - s) / n) := by
        simp only [bnd]; rw [min_eq_right (by omega)]; ring
      have hoff0 : 0 ≤ (e - s) % n * ((e - s) / n + 1) := mul_nonneg hr0 (by omega)
      have hoff1 : 0 ≤ (t - (e - s) % n) * ((e - s) / n) := mul_nonneg (by omega) hq0
      rw [chk64_ok ⟨by omega, by omega⟩]
      simp only [Res.ok_bind]
      rw [chk64_ok (x := s + _) ⟨by omega, by omega⟩]
      simp only [Res.ok_bind]
      rw [chk64_ok (x := (t - (e - s) % n) * ((e - s) / n)) ⟨by omega, by omega⟩]
      simp only [Res.ok_bind]
      rw [chk64_ok ⟨by omega, by omega⟩]
      simp only [Res.ok_bind]
      rw [chk64_ok ⟨by omega, by omega⟩]
      simp only [Res.ok_bind, Res.pure_eq, Res.ok.injEq, Prod.mk.injEq]
      omega
  · exfalso
    -- quotient + 1 overflows only for a full-size range on one thread
    rcases hov with h | h
    · omega
    · nlinarith

theorem mkWorkRange_ok {a b t : Int} (h : a ≤ b) (ht : 0 ≤ t) : mkWorkRange a b t = .ok ⟨a, b, t⟩ := by
  unfold mkWorkRange; rw [if_neg (by omega), if_neg (by omega)]

/-- The ranges for workers `t .. t+k-1`. -/
def rangesFrom (b : Backend) (s e n : Int) (t k : Nat) : List WorkRange :=
  (List.range k).map fun j => ⟨bnd s e n ((t + j : Nat) : Int), bnd s e n ((t + j : Nat) + 1 : Int), b.tid (t + j)⟩

theorem staticRanges_eq (b : Backend) (s e n : Int) (hs : InI64 s) (he : InI64 e) (hsz : InI64 (e - s)) (hse : s ≤ e)
    (hn : 2 ≤ n) (hnI : InI64 n) (k t : Nat) (ht : (t + k : Nat) ≤ n) :
    staticRanges b s e n k t = .ok (rangesFrom b s e n t k) := by
  induction k generalizing t with
  | zero => rfl
  | succ k ih =>
    unfold staticRanges
    rw [calcStatic_eq s e n t hs he hsz hse (by omega) hnI (.inr hn) (by omega) (by omega)]
    simp only [Res.ok_bind]
    rw [mkWorkRange_ok (bnd_mono _ _ _ _ (by omega) hse) (by omega)]
    simp only [Res.ok_bind]
    rw [ih (t + 1) (by omega)]
    simp only [Res.ok_bind, Res.pure_eq, rangesFrom, List.range_succ_eq_map, List.map_cons, List.map_map]
    congr 2
    apply List.map_congr_left
    intro j _
    simp only [Function.comp]
    rw [show t + 1 + j = t + (j + 1) by omega]

theorem expand_index (w : WorkRange) : (expand w).map (·.index) = irange w.start w.stop := by
  simp [expand, irange, List.map_map, Function.comp_def]

theorem expand_thread (w : WorkRange) : ∀ c ∈ expand w, c.thread = w.thread := by
  simp only [expand, List.mem_map]; rintro c ⟨k, _, rfl⟩; rfl

theorem flatten_rangesFrom (b : Backend) (s e n : Int) (hse : s ≤ e) (hn : 1 ≤ n) (t k : Nat) :
    ((rangesFrom b s e n t k).map fun w => irange w.start w.stop).flatten
      = irange (bnd s e n t) (bnd s e n ((t + k : Nat) : Int)) := by
  induction k with
  | zero => simp [rangesFrom, irange]
  | succ k ih =>
    simp only [rangesFrom, List.range_succ, List.map_append, List.flatten_append] at ih ⊢
    rw [ih]
    simp only [List.map_cons, List.map_nil, List.flatten_cons, List.flatten_nil, List.append_nil]
    rw [irange_append]
    · push_cast; rw [add_assoc]
    · have := bnd_mono' s e n hn hse t k; push_cast at this ⊢; exact this
    · exact bnd_mono _ _ _ _ hn hse

end Parallel
end CRU
