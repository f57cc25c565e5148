import Verif.Zlib.Proofs
/-
  A library that meets the hypotheses of C55 (a byte `b` is coded as `1 b`, the end as `0`), so that the theorems are not vacuous; and C74, files.
-/
namespace CRU.Zlib

/-- The codes of the bytes. -/
def code : Bytes → Bytes
  | [] => []
  | b :: x => 1 :: b :: code x

def toyStream (x c : Bytes) : Prop := c = code x ++ [0]

theorem toy_unique : ∀ {x y : Bytes} {t : Bytes}, (code x ++ [0]) ++ t = code y ++ [0] → x = y ∧ t = []
  | [], [], t, h => by simpa [code] using h
  | [], b :: y, t, h => by simp [code] at h
  | a :: x, [], t, h => by simp [code] at h
  | a :: x, b :: y, t, h => by
    simp only [code, List.cons_append, List.cons.injEq, true_and] at h
    obtain ⟨h1, h2⟩ := h
    obtain ⟨h3, h4⟩ := toy_unique h2
    exact ⟨by rw [h1, h3], h4⟩

def toyFormat : Format where
  IsStream := toyStream
  unique := by
    intro x c y d h1 h2 ⟨t, ht⟩
    unfold toyStream at h1 h2
    subst h1; subst h2
    obtain ⟨h3, h4⟩ := toy_unique ht
    subst h3
    exact ⟨rfl, rfl⟩

/-- The toy compressor: takes one byte at a time, and writes everything at the end, as far as there is room. The state is what was taken and what was written. -/
def toyDeflate : Lib (Bytes × Bytes) where
  initRet := 0
  start := ([], [])
  step s f input n :=
    match f with
    | .noFlush => ⟨(s.1 ++ input.take 1, s.2), 0, (input.take 1).length, []⟩
    | .finish =>
      let out := ((code s.1 ++ [0]).drop s.2.length).take n
      ⟨(s.1, s.2 ++ out), if s.2 ++ out = code s.1 ++ [0] then 1 else 0, 0, out⟩

def toyHonest : Honest toyDeflate where
  ok f s := match f with
    | .noFlush => s.2 = []
    | .finish => s.2 <+: code s.1 ++ [0] ∧ s.2.length < (code s.1 ++ [0]).length
  taken s := s.1
  emitted s := s.2
  ok_start := rfl
  ok_finish := by
    intro s h
    have h : s.2 = [] := h
    simp [h]
  ok_step := by
    intro s f input n h hr
    cases f with
    | noFlush => exact h
    | finish =>
      obtain ⟨⟨t, ht⟩, hl⟩ := h
      simp only [toyDeflate] at hr ⊢
      have hpre : s.2 ++ ((code s.1 ++ [0]).drop s.2.length).take n <+: code s.1 ++ [0] := by
        rw [← ht, List.drop_left]
        exact (List.prefix_append_right_inj _).mpr (List.take_prefix _ _)
      refine ⟨hpre, ?_⟩
      split at hr
      · cases hr
      · rename_i hne
        rcases Nat.lt_or_ge (s.2 ++ ((code s.1 ++ [0]).drop s.2.length).take n).length (code s.1 ++ [0]).length with h1 | h1
        · exact h1
        · exact absurd (hpre.eq_of_length_le h1) hne
  start := ⟨rfl, rfl⟩
  room := by
    intro s f input n _
    cases f with
    | noFlush => simp [toyDeflate]
    | finish => simp only [toyDeflate, List.length_take]; omega
  count := by
    intro s f input n _
    cases f with
    | noFlush => simp only [toyDeflate, List.length_take]; omega
    | finish => simp [toyDeflate]
  step := by
    intro s f input n _
    cases f with
    | noFlush => cases input <;> simp [toyDeflate]
    | finish => simp [toyDeflate]

theorem toySound : DeflateSound toyFormat toyHonest := by
  intro s n _ h
  simp only [toyDeflate] at h ⊢
  split at h
  · rename_i hc; exact hc
  · simp [zStreamEnd] at h

def toyWorks : DeflateWorks toyHonest where
  init := rfl
  rank s input := 3 * input.length + (code s.1 ++ [0]).length - s.2.length
  feed := by
    intro s input n hok hne _
    have hok : s.2 = [] := hok
    match input, hne with
    | b :: input, _ =>
      refine ⟨rfl, ?_⟩
      have hcode : ∀ x : Bytes, (code (x ++ [b])).length = (code x).length + 2 := by
        intro x
        induction x with
        | nil => rfl
        | cons a x ih => simp [code, ih]
      simp only [toyDeflate, List.take_succ_cons, List.take_zero, List.length_append, List.length_cons, List.length_nil, hok, hcode]
      simp
      omega
  finish := by
    intro s n hok hn
    obtain ⟨⟨t, ht⟩, hl⟩ := hok
    simp only [toyDeflate]
    split
    · exact .inl rfl
    · refine .inr ⟨rfl, ?_⟩
      simp only [List.length_append, List.length_take, List.length_drop, List.length_nil] at hl ⊢
      omega

/-- The toy decompressor: one code at a time. -/
def toyInflate : Lib (Bytes × Bytes) where
  initRet := 0
  start := ([], [])
  step s _ input n :=
    match input with
    | [] => ⟨s, -5, 0, []⟩
    | [a] => if a = 0 then ⟨(s.1 ++ [0], s.2), 1, 1, []⟩ else ⟨s, -5, 0, []⟩
    | a :: b :: _ =>
      if a = 0 then ⟨(s.1 ++ [0], s.2), 1, 1, []⟩
      else if a = 1 then (if 0 < n then ⟨(s.1 ++ [a, b], s.2 ++ [b]), 0, 2, [b]⟩ else ⟨s, -5, 0, []⟩)
      else ⟨s, -3, 0, []⟩

theorem code_append : ∀ (x : Bytes) (b : UInt8), code (x ++ [b]) = code x ++ [1, b]
  | [], _ => rfl
  | a :: x, b => by simp [code, code_append x b]

def toyInflateHonest : Honest toyInflate where
  ok _ s := s.1 = code s.2
  taken s := s.1
  emitted s := s.2
  ok_start := rfl
  ok_finish := fun _ h => h
  ok_step := by
    intro s f input n h hr
    match input with
    | [] => exact h
    | [a] =>
      simp only [toyInflate] at hr ⊢
      split at hr <;> simp [zOk] at hr
    | a :: b :: input =>
      simp only [toyInflate] at hr ⊢
      split at hr
      · simp [zOk] at hr
      · rename_i h0
        rw [if_neg h0]
        split at hr
        · rename_i h1
          rw [if_pos h1]
          split at hr
          · rename_i hn
            rw [if_pos hn]
            dsimp only
            rw [code_append, h, h1]
          · simp [zOk] at hr
        · simp [zOk] at hr
  start := ⟨rfl, rfl⟩
  room := by
    intro s f input n _
    match input with
    | [] => simp [toyInflate]
    | [a] => simp only [toyInflate]; split <;> simp
    | a :: b :: input =>
      simp only [toyInflate]
      split
      · simp
      · split
        · split
          · simp; omega
          · simp
        · simp
  count := by
    intro s f input n _
    match input with
    | [] => simp [toyInflate]
    | [a] => simp only [toyInflate]; split <;> simp
    | a :: b :: input =>
      simp only [toyInflate]
      split
      · simp
      · split
        · split <;> simp
        · simp
  step := by
    intro s f input n _
    match input with
    | [] => simp [toyInflate]
    | [a] => simp only [toyInflate]; split <;> simp_all
    | a :: b :: input =>
      simp only [toyInflate]
      split
      · simp_all
      · split
        · split <;> simp
        · simp

theorem toyInflateSound : InflateSound toyFormat toyInflateHonest := by
  intro s input n hok h
  have hok : s.1 = code s.2 := hok
  match input with
  | [] => simp [toyInflate, zStreamEnd] at h
  | [a] =>
    simp only [toyInflate] at h ⊢
    split at h
    · rename_i h0
      rw [if_pos h0]
      show s.1 ++ [0] = _
      rw [hok]; rfl
    · simp [zStreamEnd] at h
  | a :: b :: input =>
    simp only [toyInflate] at h ⊢
    split at h
    · rename_i h0
      rw [if_pos h0]
      show s.1 ++ [0] = _
      rw [hok]; rfl
    · split at h
      · split at h <;> simp [zStreamEnd] at h
      · simp [zStreamEnd] at h

def toyInflateWorks : InflateWorks toyFormat toyInflateHonest where
  init := rfl
  rank _ input := input.length
  progress := by
    intro s input n _ hn hr
    match input with
    | [] => simp [toyInflate, zOk] at hr
    | [a] =>
      simp only [toyInflate] at hr
      split at hr <;> simp [zOk] at hr
    | a :: b :: input =>
      simp only [toyInflate] at hr ⊢
      split at hr
      · simp [zOk] at hr
      · rename_i h0
        rw [if_neg h0]
        split at hr
        · rename_i h1
          rw [if_pos h1]
          rw [if_pos hn]
          simp
          omega
        · simp [zOk] at hr
  good := by
    intro s input n x c hok hn hs hp
    have hok : s.1 = code s.2 := hok
    have hs : c = code x ++ [0] := hs
    have hp : c <+: s.1 ++ input := hp
    rw [hok, hs] at hp
    have key : ∀ {y x : Bytes}, code x ++ [0] <+: code y ++ input → ∃ x', code x' ++ [0] <+: input := by
      intro y
      induction y with
      | nil => intro x h; exact ⟨x, by simpa [code] using h⟩
      | cons a y ih =>
        intro x h
        cases x with
        | nil =>
          obtain ⟨r, hr⟩ := h
          simp [code] at hr
        | cons b x =>
          obtain ⟨r, hr⟩ := h
          simp only [code, List.cons_append, List.cons.injEq, true_and] at hr
          exact ih ⟨r, hr.2⟩
    obtain ⟨x', r, hr⟩ := key hp
    cases x' with
    | nil =>
      right
      simp only [code, List.nil_append, List.cons_append] at hr
      rw [← hr]
      cases r <;> simp [toyInflate, zStreamEnd]
    | cons b x' =>
      left
      simp only [code, List.cons_append] at hr
      rw [← hr]
      simp only [toyInflate, zOk]
      rw [if_neg (by decide), if_pos trivial, if_pos hn]

/-- The hypotheses of C55 are met: compressing and decompressing with the toy library. -/
example (x : Bytes) (hx : x.length ≤ uint32Max) : ∃ c, Ends (fun fuel => compress toyDeflate (List.replicate bufSize 7) fuel x) (.ok c) ∧
    (c.length ≤ uint32Max → Ends (fun fuel => decompress toyInflate (List.replicate bufSize 9) fuel c) (.ok x)) :=
  C55_round_trip toyHonest toySound toyWorks toyInflateHonest toyInflateSound toyInflateWorks _ _ (List.length_replicate ..) (List.length_replicate ..) x hx

/-! ### Files -/

/-- C74: if the file could be opened and everything reached the disk, loading it gives the bytes back (for compressed forms of at most 2^32 - 1 bytes); a file that cannot be opened
or read completely gives an exception. -/
theorem C74_file_round_trip_partial {S S' : Type} {L : Lib S} {I : Lib S'} {F : Format} (H : Honest L) (hd : DeflateSound F H) (W : DeflateWorks H)
    (H' : Honest I) (hd' : InflateSound F H') (W' : InflateWorks F H') (garbage garbage' : Bytes) (hg : garbage.length = bufSize) (hg' : garbage'.length = bufSize) (x : Bytes)
    (hx : x.length ≤ uint32Max) (written : Nat → Nat) (hw : ∀ n, n ≤ written n) (readable : Nat) :
    ∃ c, Ends (fun fuel => compressAndWrite L garbage fuel x (some written)) (.ok (some c)) ∧
      (c.length ≤ uint32Max → c.length ≤ readable → Ends (fun fuel => loadAndDecompress I garbage' fuel (some c) readable) (.ok x)) ∧
      (readable < c.length → Ends (fun fuel => loadAndDecompress I garbage' fuel (some c) readable) (.throw .runtimeError)) ∧
      Ends (fun fuel => loadAndDecompress I garbage' fuel none readable) (.throw .runtimeError) := by
  obtain ⟨c, ⟨N, hN⟩, hdec⟩ := C55_round_trip H hd W H' hd' W' garbage garbage' hg hg' x hx
  refine ⟨c, ⟨N, fun fuel hf => ?_⟩, fun hc hr => ?_, fun hr => ⟨0, fun fuel _ => ?_⟩, ⟨0, fun fuel _ => rfl⟩⟩
  · have := hN fuel hf
    dsimp only at this ⊢
    unfold compressAndWrite
    rw [this]
    dsimp only [Option.map]
    rw [List.take_of_length_le (hw _)]
  · obtain ⟨M, hM⟩ := hdec hc
    refine ⟨M, fun fuel hf => ?_⟩
    have := hM fuel hf
    dsimp only at this ⊢
    unfold loadAndDecompress
    dsimp only
    rw [if_neg (by omega)]
    exact this
  · dsimp only
    unfold loadAndDecompress
    dsimp only
    rw [if_pos hr]

/-- C74 fails: writing to a file that cannot be opened returns as if it had been written, and so does writing to a full disk, after which the file is cut off. -/
theorem C74_false {S : Type} {L : Lib S} {F : Format} (H : Honest L) (hd : DeflateSound F H) (W : DeflateWorks H) (garbage : Bytes) (hg : garbage.length = bufSize) (x : Bytes)
    (hx : x.length ≤ uint32Max) :
    Ends (fun fuel => compressAndWrite L garbage fuel x none) (.ok none) ∧
    Ends (fun fuel => compressAndWrite L garbage fuel x (some fun _ => 0)) (.ok (some [])) := by
  obtain ⟨c, _, ⟨N, hN⟩⟩ := (C55_compress_ends H hd W garbage hg x).2 hx
  refine ⟨⟨N, fun fuel hf => ?_⟩, ⟨N, fun fuel hf => ?_⟩⟩
  all_goals
    have := hN fuel hf
    dsimp only at this ⊢
    unfold compressAndWrite
    rw [this]
    simp

example : Ends (fun fuel => compressAndWrite toyDeflate (List.replicate bufSize 7) fuel [1, 2, 3] none) (.ok none) :=
  (C74_false toyHonest toySound toyWorks _ (List.length_replicate ..) [1, 2, 3] (by decide)).1

end CRU.Zlib
