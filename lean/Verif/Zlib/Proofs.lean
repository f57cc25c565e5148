import Verif.Zlib.Spec
/-
  C55, C74: zlib framing.
-/
namespace CRU.Zlib

theorem writeAt_length {temp : Bytes} {pos : Nat} {out : Bytes} (h : pos + out.length ≤ temp.length) : (writeAt temp pos out).length = temp.length := by
  simp only [writeAt, List.length_append, List.length_take, List.length_drop]
  omega

theorem writeAt_take {temp : Bytes} {pos : Nat} {out : Bytes} (h : pos + out.length ≤ temp.length) :
    (writeAt temp pos out).take (pos + out.length) = temp.take pos ++ out := by
  have : (temp.take pos ++ out).length = pos + out.length := by
    simp only [List.length_append, List.length_take]; omega
  unfold writeAt
  rw [← this]
  exact List.take_left

theorem bufSize_pos : 0 < bufSize := by decide

variable {S : Type} {L : Lib S}

/-- The invariant of compression: nothing written is lost, nothing is twice in the result. -/
structure Inv (H : Honest L) (x : Bytes) (z : Z S) (buffer : Bytes) : Prop where
  len : z.temp.length = bufSize
  cursor : z.nextOut + z.availOut = bufSize
  out : buffer ++ z.temp.take z.nextOut = H.emitted z.st
  inp : H.taken z.st ++ z.input = x

theorem call_inv (H : Honest L) {x : Bytes} {z : Z S} {buffer : Bytes} (h : Inv H x z buffer) (f : Flush) (hok : H.ok f z.st) :
    ∃ z1, call L f z = .ok ((L.step z.st f z.input z.availOut).ret, z1) ∧ Inv H x z1 buffer ∧ z1.st = (L.step z.st f z.input z.availOut).state ∧
      z1.input = z.input.drop (L.step z.st f z.input z.availOut).consumed := by
  have hr := H.room z.st f z.input z.availOut hok
  have hs := H.step z.st f z.input z.availOut hok
  have hl := h.len
  have hc := h.cursor
  have hfit : z.nextOut + (L.step z.st f z.input z.availOut).out.length ≤ z.temp.length := by omega
  unfold call
  dsimp only
  rw [if_pos hfit]
  refine ⟨_, rfl, ⟨?_, ?_, ?_, ?_⟩, rfl, rfl⟩
  · exact (writeAt_length hfit).trans hl
  · dsimp only; omega
  · dsimp only
    rw [writeAt_take hfit, ← List.append_assoc, h.out, hs.2]
  · dsimp only
    rw [hs.1, List.append_assoc, List.take_append_drop]
    exact h.inp

theorem drain_inv {H : Honest L} {x : Bytes} {z : Z S} {buffer : Bytes} (h : Inv H x z buffer) :
    Inv H x (drain z buffer).1 (drain z buffer).2 ∧ 0 < (drain z buffer).1.availOut ∧ (drain z buffer).1.st = z.st ∧ (drain z buffer).1.input = z.input := by
  have hl := h.len
  have hc := h.cursor
  unfold drain
  split
  · rename_i h0
    refine ⟨⟨hl, by simp, ?_, h.inp⟩, bufSize_pos, rfl, rfl⟩
    have : z.nextOut = bufSize := by omega
    simp only [List.take_zero, List.append_nil]
    rw [← this]
    exact h.out
  · rename_i h0
    exact ⟨h, Nat.pos_of_ne_zero h0, rfl, rfl⟩

/-- What is known when the first loop ends. -/
theorem feed_sound (H : Honest L) {x : Bytes} : ∀ (fuel : Nat) (z : Z S) (buffer : Bytes) r, Inv H x z buffer → H.ok .noFlush z.st → feed L fuel z buffer = some r →
    r = .throw .runtimeError ∨ ∃ z1 b1, r = .ok (z1, b1) ∧ Inv H x z1 b1 ∧ z1.input = [] ∧ H.ok .noFlush z1.st
  | 0, z, buffer, r, _, _, h => by cases h
  | fuel + 1, z, buffer, r, hi, hok, h => by
    unfold feed at h
    split at h
    · obtain ⟨z1, e, hi1, hst, _⟩ := call_inv H hi .noFlush hok
      rw [e] at h
      dsimp only at h
      split at h
      · cases h; exact .inl rfl
      · rename_i hr
        exact feed_sound H fuel _ _ r (drain_inv hi1).1 (by rw [(drain_inv hi1).2.2.1, hst]; exact H.ok_step _ _ _ _ hok (Decidable.not_not.mp hr)) h
    · rename_i h0
      cases h
      refine .inr ⟨z, buffer, rfl, hi, ?_, hok⟩
      exact List.length_eq_zero_iff.mp (by omega)

theorem finish_sound {F : Format} (H : Honest L) (hd : DeflateSound F H) {x : Bytes} : ∀ (fuel : Nat) (z : Z S) (buffer : Bytes) r, Inv H x z buffer → z.input = [] → H.ok .finish z.st →
    finish L fuel z buffer = some r → ∃ ret z1 b1, r = .ok (ret, z1, b1) ∧ Inv H x z1 b1 ∧ z1.input = [] ∧
      (ret = zStreamEnd → F.IsStream x (H.emitted z1.st) ∧ ∃ s0 n, H.ok .finish s0 ∧ (L.step s0 .finish [] n).ret = zStreamEnd ∧ z1.st = (L.step s0 .finish [] n).state)
  | 0, z, buffer, r, _, _, _, h => by cases h
  | fuel + 1, z, buffer, r, hi, h0, hok, h => by
    unfold finish at h
    dsimp only at h
    obtain ⟨hi1, _, hst, hin⟩ := drain_inv hi
    obtain ⟨z1, e, hi2, hst2, hin2⟩ := call_inv H hi1 .finish (by rw [hst]; exact hok)
    rw [e] at h
    dsimp only at h
    have hnil : (drain z buffer).1.input = [] := hin.trans h0
    split at h
    · rename_i hr
      exact finish_sound H hd fuel z1 _ r hi2 (by rw [hin2, hnil]; simp) (by rw [hst2]; exact H.ok_step _ _ _ _ (by rw [hst]; exact hok) hr) h
    · cases h
      refine ⟨_, z1, _, rfl, hi2, by rw [hin2, hnil]; simp, fun hr => ?_⟩
      rw [hnil] at hr hst2
      have := hd _ _ (by rw [hst]; exact hok) hr
      rw [← hst2] at this
      have hx := hi1.inp
      rw [hnil, List.append_nil] at hx
      rw [hx] at this
      exact ⟨this, _, _, by rw [hst]; exact hok, hr, hst2⟩

/-- C55: with any library that counts honestly and says `Z_STREAM_END` only at the end, whatever the return codes, chunking and initial array, `CompressBytes` never
writes out of bounds; it throws, or returns everything the library wrote, in order, which is a complete stream of the whole input. It returns only if every call succeeded and the last one reported the end of the stream. -/
theorem C55_compress {F : Format} (H : Honest L) (hd : DeflateSound F H) (garbage : Bytes) (hg : garbage.length = bufSize) (fuel : Nat) (x : Bytes) (r : Res Bytes)
    (h : compress L garbage fuel x = some r) :
    (r = .throw .invalidArgument ∧ uint32Max < x.length) ∨ r = .throw .runtimeError ∨
    ∃ c s, r = .ok c ∧ x.length ≤ uint32Max ∧ F.IsStream x c ∧ c = H.emitted s ∧ x = H.taken s ∧
      L.initRet = zOk ∧ ∃ s0 n, H.ok .finish s0 ∧ (L.step s0 .finish [] n).ret = zStreamEnd ∧ s = (L.step s0 .finish [] n).state := by
  unfold compress at h
  split at h
  · rename_i hx
    split at h
    · cases h; exact .inr (.inl rfl)
    · rename_i hinit
      have hi : Inv H x { st := L.start, input := x, temp := garbage, nextOut := 0, availOut := bufSize, totalOut := 0 } [] :=
        ⟨hg, by simp, by simp [H.start.2], by simp [H.start.1]⟩
      split at h
      · cases h
      · rename_i e hf
        rcases feed_sound H fuel _ _ _ hi H.ok_start hf with he | ⟨_, _, he, _⟩
        · cases he; cases h; exact .inr (.inl rfl)
        · cases he
      · rename_i hf
        rcases feed_sound H fuel _ _ _ hi H.ok_start hf with he | ⟨_, _, he, _⟩ <;> cases he
      · rename_i z b hf
        rcases feed_sound H fuel _ _ _ hi H.ok_start hf with he | ⟨z1, b1, he, hi1, h0, hok1⟩
        · cases he
        · cases he
          split at h
          · cases h
          · rename_i e hf2
            obtain ⟨_, _, _, he, _⟩ := finish_sound H hd fuel _ _ _ hi1 h0 (H.ok_finish _ hok1) hf2
            cases he
          · rename_i hf2
            obtain ⟨_, _, _, he, _⟩ := finish_sound H hd fuel _ _ _ hi1 h0 (H.ok_finish _ hok1) hf2
            cases he
          · rename_i ret z2 b2 hf2
            obtain ⟨_, _, _, he, hi2, hnil, hstr⟩ := finish_sound H hd fuel _ _ _ hi1 h0 (H.ok_finish _ hok1) hf2
            cases he
            unfold compressTail at h
            split at h
            · cases h; exact .inr (.inl rfl)
            · rename_i hret
              have hret : ret = zStreamEnd := Decidable.not_not.mp hret
              cases h
              refine .inr (.inr ⟨_, z2.st, rfl, hx, ?_, ?_, ?_, Decidable.not_not.mp hinit, (hstr hret).2⟩)
              · have := hi2.out
                have hc := hi2.cursor
                rw [show bufSize - z2.availOut = z2.nextOut by omega, this]
                exact (hstr hret).1
              · have hc := hi2.cursor
                rw [show bufSize - z2.availOut = z2.nextOut by omega, hi2.out]
              · have := hi2.inp
                rw [hnil, List.append_nil] at this
                exact this.symm
  · rename_i hx
    cases h
    exact .inl ⟨rfl, by omega⟩

theorem feed_mono {L : Lib S} : ∀ {fuel : Nat} {z : Z S} {buffer : Bytes} {r}, feed L fuel z buffer = some r → feed L (fuel + 1) z buffer = some r
  | 0, _, _, _, h => by cases h
  | fuel + 1, z, buffer, r, h => by
    unfold feed at h ⊢
    split
    · rename_i hc
      rw [if_pos hc] at h
      cases hcall : call L .noFlush z with
      | ok p =>
        obtain ⟨ret, z1⟩ := p
        rw [hcall] at h
        dsimp only at h ⊢
        split
        · rename_i hr; rw [if_pos hr] at h; exact h
        · rename_i hr; rw [if_neg hr] at h; exact feed_mono h
      | throw e => rw [hcall] at h; exact h
      | ub => rw [hcall] at h; exact h
    · rename_i hc
      rw [if_neg hc] at h
      exact h

theorem finish_mono {L : Lib S} : ∀ {fuel : Nat} {z : Z S} {buffer : Bytes} {r}, finish L fuel z buffer = some r → finish L (fuel + 1) z buffer = some r
  | 0, _, _, _, h => by cases h
  | fuel + 1, z, buffer, r, h => by
    unfold finish at h ⊢
    dsimp only at h ⊢
    cases hcall : call L .finish (drain z buffer).1 with
    | ok p =>
      obtain ⟨ret, z1⟩ := p
      rw [hcall] at h
      dsimp only at h ⊢
      split
      · rename_i hr; rw [if_pos hr] at h; exact finish_mono h
      · rename_i hr; rw [if_neg hr] at h; exact h
    | throw e => rw [hcall] at h; exact h
    | ub => rw [hcall] at h; exact h

theorem drainAll_mono {L : Lib S} : ∀ {fuel : Nat} {z : Z S} {buffer : Bytes} {r}, drainAll L fuel z buffer = some r → drainAll L (fuel + 1) z buffer = some r
  | 0, _, _, _, h => by cases h
  | fuel + 1, z, buffer, r, h => by
    unfold drainAll at h ⊢
    cases hcall : call L .noFlush { z with nextOut := 0, availOut := bufSize } with
    | ok p =>
      obtain ⟨ret, z1⟩ := p
      rw [hcall] at h
      dsimp only at h ⊢
      split
      · rename_i hr; rw [if_pos hr] at h; exact drainAll_mono h
      · rename_i hr; rw [if_neg hr] at h; exact h
    | throw e => rw [hcall] at h; exact h
    | ub => rw [hcall] at h; exact h

theorem mono_le {α : Type} {f : Nat → Option α} (hf : ∀ n r, f n = some r → f (n + 1) = some r) {n m : Nat} (hnm : n ≤ m) {r : α} (h : f n = some r) : f m = some r := by
  induction hnm with
  | refl => exact h
  | step _ ih => exact hf _ _ ih

theorem feed_works (H : Honest L) (W : DeflateWorks H) {x : Bytes} : ∀ (k : Nat) (z : Z S) (buffer : Bytes), Inv H x z buffer → H.ok .noFlush z.st → 0 < z.availOut → W.rank z.st z.input ≤ k →
    ∃ z1 b1, feed L (k + 1) z buffer = some (.ok (z1, b1))
  | k, z, buffer, hi, hok, ha, hk => by
    unfold feed
    split
    · rename_i hc
      obtain ⟨z1, e, hi1, hst, hin⟩ := call_inv H hi .noFlush hok
      obtain ⟨hret, hrank⟩ := W.feed z.st z.input z.availOut hok (fun hn => hc (by rw [hn]; rfl)) ha
      obtain ⟨hi2, ha2, hst2, hin2⟩ := drain_inv hi1 (buffer := buffer)
      rw [e]
      dsimp only
      rw [if_neg (fun hn => hn hret)]
      rw [← hst, ← hin, ← hst2, ← hin2] at hrank
      match k with
      | 0 => omega
      | k + 1 => exact feed_works H W k _ _ hi2 (by rw [hst2, hst]; exact H.ok_step _ _ _ _ hok hret) ha2 (by omega)
    · exact ⟨_, _, rfl⟩

theorem finish_works (H : Honest L) (W : DeflateWorks H) {x : Bytes} : ∀ (k : Nat) (z : Z S) (buffer : Bytes), Inv H x z buffer → z.input = [] → H.ok .finish z.st → W.rank z.st [] ≤ k →
    ∃ z1 b1, finish L (k + 1) z buffer = some (.ok (zStreamEnd, z1, b1))
  | k, z, buffer, hi, h0, hok, hk => by
    unfold finish
    dsimp only
    obtain ⟨hi1, ha1, hst1, hin1⟩ := drain_inv hi
    obtain ⟨z1, e, hi2, hst, hin⟩ := call_inv H hi1 .finish (by rw [hst1]; exact hok)
    have hnil : (drain z buffer).1.input = [] := hin1.trans h0
    have hw := W.finish (drain z buffer).1.st (drain z buffer).1.availOut (by rw [hst1]; exact hok) ha1
    rw [e]
    rw [hnil] at hst hin ⊢
    dsimp only
    rcases hw with hr | ⟨hr, hrank⟩
    · rw [if_neg (by rw [hr]; decide), hr]
      exact ⟨_, _, rfl⟩
    · rw [if_pos hr]
      rw [← hst, hst1] at hrank
      match k with
      | 0 => omega
      | k + 1 => exact finish_works H W k _ _ hi2 (by rw [hin]; simp) (by rw [hst]; exact H.ok_step _ _ _ _ (by rw [hst1]; exact hok) hr) (by omega)

/-- C55: with a library that works, compressing at most 2^32 - 1 bytes ends, without exception, with a complete stream of the input. -/
theorem C55_compress_ends {F : Format} (H : Honest L) (hd : DeflateSound F H) (W : DeflateWorks H) (garbage : Bytes) (hg : garbage.length = bufSize) (x : Bytes) :
    (uint32Max < x.length → Ends (fun fuel => compress L garbage fuel x) (.throw .invalidArgument)) ∧
    (x.length ≤ uint32Max → ∃ c, F.IsStream x c ∧ Ends (fun fuel => compress L garbage fuel x) (.ok c)) := by
  refine ⟨fun hx => ⟨0, fun fuel _ => ?_⟩, fun hx => ?_⟩
  · dsimp only
    unfold compress
    rw [if_neg (by omega)]
  · have hi : Inv H x { st := L.start, input := x, temp := garbage, nextOut := 0, availOut := bufSize, totalOut := 0 } [] :=
      ⟨hg, by simp, by simp [H.start.2], by simp [H.start.1]⟩
    obtain ⟨z1, b1, hf⟩ := feed_works H W (W.rank L.start x) _ _ hi H.ok_start bufSize_pos (Nat.le_refl _)
    rcases feed_sound H _ _ _ _ hi H.ok_start hf with he | ⟨_, _, he, hi1, h0, hok1⟩
    · cases he
    cases he
    obtain ⟨z2, b2, hf2⟩ := finish_works H W _ _ _ hi1 h0 (H.ok_finish _ hok1) (Nat.le_refl _)
    obtain ⟨_, _, _, he, hi2, _, hstr⟩ := finish_sound H hd _ _ _ _ hi1 h0 (H.ok_finish _ hok1) hf2
    cases he
    have hc := hi2.cursor
    refine ⟨_, (hstr rfl).1, W.rank L.start x + 1 + (W.rank z1.st [] + 1), fun fuel hfuel => ?_⟩
    dsimp only
    unfold compress
    rw [if_pos hx, if_neg (fun hn => hn W.init)]
    rw [mono_le (f := fun n => feed L n _ _) (fun n r h => feed_mono h) (by omega) hf]
    dsimp only
    rw [mono_le (f := fun n => finish L n _ _) (fun n r h => finish_mono h) (by omega) hf2]
    dsimp only
    rw [← hi2.out]
    unfold compressTail
    rw [if_neg (by decide), show bufSize - z2.availOut = z2.nextOut by omega]

/-! ### Decompression -/

/-- The invariant of decompression, between calls. -/
structure DInv (H : Honest L) (c : Bytes) (z : Z S) (buffer : Bytes) : Prop where
  len : z.temp.length = bufSize
  out : buffer = H.emitted z.st
  total : z.totalOut = buffer.length
  inp : H.taken z.st ++ z.input = c

theorem dcall_inv (H : Honest L) {c : Bytes} {z : Z S} {buffer : Bytes} (h : DInv H c z buffer) (hok : H.ok .noFlush z.st) :
    ∃ z1, call L .noFlush { z with nextOut := 0, availOut := bufSize } = .ok ((L.step z.st .noFlush z.input bufSize).ret, z1) ∧ DInv H c z1 (collect z1 buffer) ∧
      z1.st = (L.step z.st .noFlush z.input bufSize).state ∧ z1.input = z.input.drop (L.step z.st .noFlush z.input bufSize).consumed := by
  have hr := H.room z.st .noFlush z.input bufSize hok
  have hs := H.step z.st .noFlush z.input bufSize hok
  have hl := h.len
  have hfit : 0 + (L.step z.st .noFlush z.input bufSize).out.length ≤ z.temp.length := by omega
  unfold call
  dsimp only
  rw [if_pos hfit]
  have hcol : ∀ z1 : Z S, z1.temp = writeAt z.temp 0 (L.step z.st .noFlush z.input bufSize).out → z1.availOut = bufSize - (L.step z.st .noFlush z.input bufSize).out.length →
      z1.totalOut = z.totalOut + (L.step z.st .noFlush z.input bufSize).out.length → collect z1 buffer = buffer ++ (L.step z.st .noFlush z.input bufSize).out := by
    intro z1 h1 h2 h3
    unfold collect
    have e := writeAt_take hfit
    rw [Nat.zero_add, List.take_zero, List.nil_append] at e
    split
    · rw [h1, h2, show bufSize - (bufSize - (L.step z.st .noFlush z.input bufSize).out.length) = (L.step z.st .noFlush z.input bufSize).out.length by omega, e]
    · rename_i hn
      have ht := h.total
      have : (L.step z.st .noFlush z.input bufSize).out = [] := List.length_eq_zero_iff.mp (by omega)
      rw [this, List.append_nil]
  refine ⟨_, rfl, ⟨?_, ?_, ?_, ?_⟩, rfl, rfl⟩
  · exact (writeAt_length hfit).trans hl
  · rw [hcol _ rfl rfl rfl, h.out, ← hs.2]
  · rw [hcol _ rfl rfl rfl, List.length_append, ← h.total]
  · dsimp only
    rw [hs.1, List.append_assoc, List.take_append_drop]
    exact h.inp

theorem drainAll_sound {F : Format} (H : Honest L) (hd : InflateSound F H) {c : Bytes} : ∀ (fuel : Nat) (z : Z S) (buffer : Bytes) r, DInv H c z buffer → H.ok .noFlush z.st →
    drainAll L fuel z buffer = some r → ∃ ret z1 b1, r = .ok (ret, b1) ∧ DInv H c z1 b1 ∧ 
      (ret = zStreamEnd → F.IsStream b1 (H.taken z1.st) ∧ ∃ s0 i0, H.ok .noFlush s0 ∧ (L.step s0 .noFlush i0 bufSize).ret = zStreamEnd ∧ z1.st = (L.step s0 .noFlush i0 bufSize).state)
  | 0, z, buffer, r, _, _, h => by cases h
  | fuel + 1, z, buffer, r, hi, hok, h => by
    unfold drainAll at h
    obtain ⟨z1, e, hi1, hst, hin⟩ := dcall_inv H hi hok
    rw [e] at h
    dsimp only at h
    split at h
    · rename_i hr
      exact drainAll_sound H hd fuel _ _ r hi1 (by rw [hst]; exact H.ok_step _ _ _ _ hok hr) h
    · cases h
      refine ⟨_, z1, _, rfl, hi1, fun hr => ?_⟩
      have := hd _ _ _ hok hr
      refine ⟨?_, _, _, hok, hr, hst⟩
      rw [hi1.out, hst]
      exact this

/-- C55: with any library that counts honestly and says `Z_STREAM_END` only after a complete stream, `DecompressBytes` never writes out of bounds; it throws, or returns
everything the library wrote, in order, and that is what the complete stream at the front of the input stands for (bytes after it are ignored). It returns only if every call succeeded and the last one reported the end of the stream. -/
theorem C55_decompress {F : Format} (H : Honest L) (hd : InflateSound F H) (garbage : Bytes) (hg : garbage.length = bufSize) (fuel : Nat) (c : Bytes) (r : Res Bytes)
    (h : decompress L garbage fuel c = some r) :
    (r = .throw .invalidArgument ∧ uint32Max < c.length) ∨ r = .throw .runtimeError ∨
    ∃ x s d, r = .ok x ∧ c.length ≤ uint32Max ∧ x = H.emitted s ∧ d <+: c ∧ F.IsStream x d ∧
      L.initRet = zOk ∧ ∃ s0 i0, H.ok .noFlush s0 ∧ (L.step s0 .noFlush i0 bufSize).ret = zStreamEnd ∧ s = (L.step s0 .noFlush i0 bufSize).state := by
  unfold decompress at h
  split at h
  · rename_i hc
    split at h
    · cases h; exact .inr (.inl rfl)
    · rename_i hinit
      have hi : DInv H c { st := L.start, input := c, temp := garbage, nextOut := 0, availOut := 0, totalOut := 0 } [] :=
        ⟨hg, H.start.2.symm, rfl, by simp [H.start.1]⟩
      split at h
      · cases h
      · rename_i e hf
        obtain ⟨_, _, _, he, _⟩ := drainAll_sound H hd fuel _ _ _ hi H.ok_start hf
        cases he
      · rename_i hf
        obtain ⟨_, _, _, he, _⟩ := drainAll_sound H hd fuel _ _ _ hi H.ok_start hf
        cases he
      · rename_i ret b hf
        obtain ⟨_, z1, _, he, hi1, hstr⟩ := drainAll_sound H hd fuel _ _ _ hi H.ok_start hf
        cases he
        unfold decompressTail at h
        split at h
        · cases h; exact .inr (.inl rfl)
        · rename_i hret
          cases h
          exact .inr (.inr ⟨_, z1.st, H.taken z1.st, rfl, hc, hi1.out, ⟨z1.input, hi1.inp⟩, (hstr (Decidable.not_not.mp hret)).1, Decidable.not_not.mp hinit,
            (hstr (Decidable.not_not.mp hret)).2⟩)
  · rename_i hc
    cases h
    exact .inl ⟨rfl, by omega⟩

theorem drainAll_works {F : Format} (H : Honest L) (W : InflateWorks F H) {c : Bytes} : ∀ (k : Nat) (z : Z S) (buffer : Bytes), DInv H c z buffer → H.ok .noFlush z.st → W.rank z.st z.input ≤ k →
    ∃ ret b1, drainAll L (k + 1) z buffer = some (.ok (ret, b1)) ∧ ((∃ x d, F.IsStream x d ∧ d <+: c) → ret = zStreamEnd)
  | k, z, buffer, hi, hok, hk => by
    unfold drainAll
    obtain ⟨z1, e, hi1, hst, hin⟩ := dcall_inv H hi hok
    rw [e]
    dsimp only
    by_cases hr : (L.step z.st .noFlush z.input bufSize).ret = zOk
    · rw [if_pos hr]
      have hrank := W.progress z.st z.input bufSize hok bufSize_pos hr
      rw [← hst, ← hin] at hrank
      match k with
      | 0 => omega
      | k + 1 => exact drainAll_works H W k _ _ hi1 (by rw [hst]; exact H.ok_step _ _ _ _ hok hr) (by omega)
    · rw [if_neg hr]
      refine ⟨_, _, rfl, fun ⟨x, d, hs, hp⟩ => ?_⟩
      rw [← hi.inp] at hp
      exact (W.good z.st z.input bufSize x d hok bufSize_pos hs hp).resolve_left hr

/-- C55: with a library that works, decompressing at most 2^32 - 1 bytes ends: with the bytes that the stream at the front of the input stands for, and with an exception
exactly if the input does not start with a complete stream (so if it is truncated or damaged). -/
theorem C55_decompress_ends {F : Format} (H : Honest L) (hd : InflateSound F H) (W : InflateWorks F H) (garbage : Bytes) (hg : garbage.length = bufSize) (c : Bytes) :
    (uint32Max < c.length → Ends (fun fuel => decompress L garbage fuel c) (.throw .invalidArgument)) ∧
    (c.length ≤ uint32Max → ∀ x d, F.IsStream x d → d <+: c → Ends (fun fuel => decompress L garbage fuel c) (.ok x)) ∧
    (c.length ≤ uint32Max → (¬ ∃ x d, F.IsStream x d ∧ d <+: c) → Ends (fun fuel => decompress L garbage fuel c) (.throw .runtimeError)) := by
  refine ⟨fun hx => ⟨0, fun fuel _ => ?_⟩, ?_⟩
  · dsimp only
    unfold decompress
    rw [if_neg (by omega)]
  · have hi : DInv H c { st := L.start, input := c, temp := garbage, nextOut := 0, availOut := 0, totalOut := 0 } [] :=
      ⟨hg, H.start.2.symm, rfl, by simp [H.start.1]⟩
    obtain ⟨ret, b, hf, hgood⟩ := drainAll_works H W _ _ _ hi H.ok_start (Nat.le_refl _)
    obtain ⟨_, z1, _, he, hi1, hstr⟩ := drainAll_sound H hd _ _ _ _ hi H.ok_start hf
    cases he
    have key : c.length ≤ uint32Max → Ends (fun fuel => decompress L garbage fuel c) (decompressTail ret b) := by
      intro hc
      refine ⟨W.rank L.start c + 1, fun fuel hfuel => ?_⟩
      dsimp only
      unfold decompress
      rw [if_pos hc, if_neg (fun hn => hn W.init), mono_le (f := fun n => drainAll L n _ _) (fun n r h => drainAll_mono h) hfuel hf]
    refine ⟨fun hc x d hs hp => ?_, fun hc hn => ?_⟩
    · have hret := hgood ⟨x, d, hs, hp⟩
      have hstr := (hstr hret).1
      have hp2 : H.taken z1.st <+: c := ⟨z1.input, hi1.inp⟩
      have : b = x := by
        rcases List.prefix_or_prefix_of_prefix hp2 hp with h1 | h1
        · exact (F.unique hstr hs h1).1
        · exact (F.unique hs hstr h1).1.symm
      rw [← this]
      have h2 := key hc
      unfold decompressTail at h2
      rwa [if_neg (fun hne => hne hret)] at h2
    · have h2 := key hc
      unfold decompressTail at h2
      by_cases hret : ret = zStreamEnd
      · exact absurd ⟨b, _, (hstr hret).1, z1.input, hi1.inp⟩ hn
      · rwa [if_pos hret] at h2

/-- C55: decompressing what was compressed gives the input back, if the compressed form is not longer than 2^32 - 1 bytes. -/
theorem C55_round_trip {F : Format} {S' : Type} {I : Lib S'} (H : Honest L) (hd : DeflateSound F H) (W : DeflateWorks H)
    (H' : Honest I) (hd' : InflateSound F H') (W' : InflateWorks F H') (garbage garbage' : Bytes) (hg : garbage.length = bufSize) (hg' : garbage'.length = bufSize) (x : Bytes)
    (hx : x.length ≤ uint32Max) :
    ∃ c, Ends (fun fuel => compress L garbage fuel x) (.ok c) ∧ (c.length ≤ uint32Max → Ends (fun fuel => decompress I garbage' fuel c) (.ok x)) := by
  obtain ⟨c, hs, he⟩ := (C55_compress_ends H hd W garbage hg x).2 hx
  exact ⟨c, he, fun hc => (C55_decompress_ends H' hd' W' garbage' hg' c).2.1 hc x c hs (List.prefix_refl c)⟩

end CRU.Zlib
