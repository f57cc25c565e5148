import Verif.Print.Read
/-
  C96. What `Print` makes of a value with delimiters can be read back: different values have different texts. Without delimiters this
  holds for flat containers only.
-/
namespace CRU.Print

theorem lit_vx : lit "VectorXd: <>" = lit "VectorXd: <" ++ ['>'] := by simp [lit]
theorem lit_gt : lit ">" = ['>'] := by simp [lit]
theorem lit_rb : lit "]" = [']'] := by simp [lit]
theorem lit_nl : lit "\n" = ['\n'] := by simp [lit]
theorem lit_mx : lit "MatrixXd:\n[]" = lit "MatrixXd:\n[" ++ [']'] := by simp [lit]

attribute [local irreducible] lit

theorem num_no_head {n : Num} {c : Char} (hc : plain c = false) {r s : Text} : n.text ++ r ≠ c :: s := by
  intro h
  obtain ⟨t, ok, ne⟩ := n
  cases t with
  | nil => exact ne rfl
  | cons d t =>
    simp only [List.cons_append, List.cons.injEq] at h
    have := ok d (by simp)
    rw [h.1, hc] at this
    cases this

theorem reads_vectorX : Reads vectorXText := by
  have e : ∀ (v : List Num) (r : Text), vectorXText v ++ r = lit "VectorXd: <" ++ (match v with
      | [] => '>' :: r
      | x :: xs => x.text ++ ((xs.map fun y => lit ", " ++ y.text).flatten ++ '>' :: r)) := by
    intro v r
    cases v with
    | nil => simp only [vectorXText, lit_vx, List.append_assoc, List.cons_append, List.nil_append]
    | cons x xs => simp only [vectorXText, lit_gt, List.append_assoc, List.cons_append, List.nil_append]
  intro x y r s _ _ h
  rw [e, e] at h
  have h := List.append_cancel_left h
  cases x with
  | nil =>
    cases y with
    | nil => exact ⟨rfl, by simpa using h⟩
    | cons y ys => exact absurd h.symm (num_no_head (by decide))
  | cons x xs =>
    cases y with
    | nil => exact absurd h (num_no_head (by decide))
    | cons y ys =>
      obtain ⟨h1, h2⟩ := num_split (commas_ends (by decide) xs r) (commas_ends (by decide) ys s) h
      obtain ⟨h3, h4⟩ := commas_inj (by decide) (by decide) xs ys r s h2
      exact ⟨by rw [h1, h3], h4⟩

theorem reads_print {sep : Text} (hs : SepOk sep) : ∀ (t : Ty), t.noStrings = true → Reads (print true sep t)
  | .bool, _ => by show Reads boolText; exact reads_plain boolText_plain (fun _ _ => boolText_inj)
  | .byte, _ => by
    show Reads byteText
    exact reads_plain (fun x => natText_plain x.val) (fun x y h => Fin.ext (natText_inj h))
  | .int, _ => by show Reads intText; exact reads_plain intText_plain (fun _ _ => intText_inj)
  | .string, h => by simp [Ty.noStrings] at h
  | .vector2, _ => by show Reads vector2Text; exact reads_vector2
  | .vector3, _ => by show Reads vector3Text; exact reads_vector3
  | .vector4, _ => by show Reads vector4Text; exact reads_vector4
  | .vectorX, _ => by show Reads vectorXText; exact reads_vectorX
  | .quaternion, _ => by show Reads quaternionText; exact reads_quaternion
  | .isometry, _ => by show Reads isometryText; exact reads_isometry
  | .pair a b, h => by
    simp only [Ty.noStrings, Bool.and_eq_true] at h
    show Reads (pairText true (print true sep a) (print true sep b))
    exact reads_pair (reads_print hs a h.1) (reads_print hs b h.2)
  | .seq k t, h => by
    show Reads (container true k.opening k.closing (k.loop (print true sep t) sep))
    rw [show k.loop (print true sep t) sep = indexLoop (print true sep t) sep from funext (Kind.loop_eq k _ sep)]
    refine reads_container (reads_print hs t h) hs ?_ ?_ ?_ <;> cases k <;> decide
  | .map k a b, h => by
    simp only [Ty.noStrings, Bool.and_eq_true] at h
    show Reads (container true '{' '}' (iterLoop (pairText true (print true sep a) (print true sep b)) sep true))
    rw [show iterLoop (pairText true (print true sep a) (print true sep b)) sep true
      = indexLoop (pairText true (print true sep a) (print true sep b)) sep from funext (iterLoop_true _ sep)]
    exact reads_container (reads_pair (reads_print hs a h.1) (reads_print hs b h.2)) hs (by decide) (by decide) (by decide)

/-- **C96.** Two values of the same type, containers nested to any depth, have the same text with delimiters only if they are the
    same (numbers of type `double`: if they are printed alike). -/
theorem C96_read_back {sep : Text} (hs : SepOk sep) (t : Ty) (ht : t.noStrings = true) (x y : t.Val)
    (h : print true sep t x = print true sep t y) : x = y := by
  have := reads_print hs t ht x y [] [] (by simp [Stop]) (by simp [Stop]) (by simpa using h)
  exact this.1

/-- The default separator will do. -/
theorem default_sep : SepOk (lit ", ") := by
  refine ⟨',', [' '], ?_, by decide, by decide⟩
  unfold lit; simp

/-- A map from numbers to nested lists. -/
example : (Ty.map .map .int (.seq .vector (.seq .vector .int))).noStrings = true := rfl

/-- **C96, the form of the text.** A container is its elements in the order of iteration, separated by the separator, between its
    delimiters if these are asked for; an empty container is empty text, with or without delimiters. -/
theorem C96_form (delims : Bool) (sep : Text) (t : Ty) (k : Kind) (x : List t.Val) :
    print delims sep (.seq k t) x =
      if x = [] then [] else
        (if delims then (if k ∈ [.array, .vector, .list, .deque] then ['['] else ['(']) else [])
        ++ List.intercalate sep (x.map (print delims sep t))
        ++ (if delims then (if k ∈ [.array, .vector, .list, .deque] then [']'] else [')']) else []) := by
  change container delims k.opening k.closing (k.loop (print delims sep t) sep) x = _
  rw [show k.loop (print delims sep t) sep = indexLoop (print delims sep t) sep from funext (Kind.loop_eq k _ sep)]
  cases x with
  | nil => simp [container]
  | cons a l =>
    rw [if_neg (by simp), ← indexLoop_eq_intercalate]
    cases delims <;> cases k <;> simp [container, Kind.opening, Kind.closing]

/-- **C96, the form of the text of a map.** -/
theorem C96_form_map (delims : Bool) (sep : Text) (a b : Ty) (k : MapKind) (x : List (a.Val × b.Val)) :
    print delims sep (.map k a b) x =
      if x = [] then [] else
        (if delims then ['{'] else [])
        ++ List.intercalate sep (x.map fun p => (if delims then ['<'] else []) ++ print delims sep a p.1 ++ [':', ' ']
            ++ print delims sep b p.2 ++ (if delims then ['>'] else []))
        ++ (if delims then ['}'] else []) := by
  have e : (fun p : a.Val × b.Val => (if delims then ['<'] else []) ++ print delims sep a p.1 ++ [':', ' ']
            ++ print delims sep b p.2 ++ (if delims then ['>'] else []))
      = pairText delims (print delims sep a) (print delims sep b) := by
    funext p
    cases delims <;> simp [pairText, lit]
  rw [e]
  change container delims '{' '}' (iterLoop (pairText delims (print delims sep a) (print delims sep b)) sep true) x = _
  rw [show iterLoop (pairText delims (print delims sep a) (print delims sep b)) sep true
      = indexLoop (pairText delims (print delims sep a) (print delims sep b)) sep from funext (iterLoop_true _ sep)]
  cases x with
  | nil => simp [container]
  | cons a l =>
    rw [if_neg (by simp), ← indexLoop_eq_intercalate]
    cases delims <;> simp [container]

/-- **C96, without delimiters** the text of a container of integers still determines the container. -/
theorem C96_flat {sep : Text} (hs : SepOk sep) (delims : Bool) (k : Kind) (x y : List Int)
    (h : print delims sep (.seq k .int) x = print delims sep (.seq k .int) y) : x = y := by
  cases delims with
  | true => exact C96_read_back hs (.seq k .int) rfl x y h
  | false =>
    rw [C96_form, C96_form] at h
    simp only [Bool.false_eq_true, if_false, List.append_nil, List.nil_append] at h
    have ne : ∀ (a : Int) (l : List Int), List.intercalate sep ((a :: l).map (print false sep .int)) ≠ [] := by
      intro a l e
      rw [← indexLoop_eq_intercalate] at e
      simp only [indexLoop, print, List.append_eq_nil_iff] at e
      exact intText_ne_nil a e.1
    cases x with
    | nil =>
      cases y with
      | nil => rfl
      | cons b l => simp only [if_true, if_neg (show ¬ (b :: l) = [] by simp)] at h; exact absurd h.symm (ne b l)
    | cons a l =>
      cases y with
      | nil => simp only [if_true, if_neg (show ¬ (a :: l) = [] by simp)] at h; exact absurd h (ne a l)
      | cons b m =>
        rw [if_neg (by simp), if_neg (by simp)] at h
        refine C96_read_back hs (.seq k .int) rfl _ _ ?_
        have e : print true sep .int = print false sep .int := rfl
        have ha : ¬ (a :: l) = [] := by simp
        have hb : ¬ (b :: m) = [] := by simp
        rw [C96_form, C96_form, if_neg ha, if_neg hb, e, h]

/-- The default call is the one without delimiters: nested containers then look like flat ones. -/
theorem C96_nested_false : ∃ x y : List (List Int), x ≠ y ∧
    print false (lit ", ") (.seq .vector (.seq .vector .int)) x = print false (lit ", ") (.seq .vector (.seq .vector .int)) y := by
  refine ⟨[[1], [2]], [[1, 2]], by decide, ?_⟩
  rw [C96_form, C96_form]
  rw [if_neg (by simp), if_neg (by simp)]
  simp only [List.map_cons, List.map_nil]
  rw [C96_form, C96_form, C96_form]
  simp [List.intercalate, List.intersperse]

/-- Strings are not quoted: even with delimiters, one string can look like two. -/
theorem C96_strings_false : ∃ x y : List Text, x ≠ y ∧
    print true (lit ", ") (.seq .vector .string) x = print true (lit ", ") (.seq .vector .string) y := by
  refine ⟨["1".toList, "2".toList], ["1, 2".toList], by simp, ?_⟩
  rw [C96_form, C96_form]
  unfold lit
  simp [List.intercalate, List.intersperse, print]

/-- An empty container inside another is invisible but for the separators: one empty list prints as `[]`, none as nothing. -/
example : print true (lit ", ") (.seq .vector (.seq .vector .int)) [[]] = "[]".toList
    ∧ print true (lit ", ") (.seq .vector (.seq .vector .int)) [] = [] := by
  constructor
  · rw [C96_form]; simp [C96_form, List.intercalate]
  · rw [C96_form]; simp

/-! ### Matrices -/

/-- **C96, matrices.** Two matrices that are not empty have the same text only if they have the same shape and each number is printed
    alike. -/
theorem C96_matrix (rows cols rows' cols' : Nat) (m m' : Nat → Nat → Num) (hr : 0 < rows) (hc : 0 < cols) (hr' : 0 < rows')
    (hc' : 0 < cols') (h : matrixText rows cols m = matrixText rows' cols' m') :
    rows = rows' ∧ cols = cols' ∧ ∀ i j, i < rows → j < cols → m i j = m' i j := by
  have nl : plain '\n' = false := by decide
  have rb : plain ']' = false := by decide
  let tail (c : Nat) (m : Nat → Nat → Num) (i : Nat) : List Num := (List.range' 1 (c - 1)).map (m i)
  have er : ∀ c m i (r : Text), rowText c m i ++ r = (m i 0).text ++ (((tail c m i).map fun y => lit ", " ++ y.text).flatten ++ r) := by
    intro c m i r
    simp only [rowText, tail, List.map_map, List.append_assoc]
    rfl
  -- one row
  have row : ∀ (i : Nat) (d : Char) (d' : Char) (r s : Text), (d = '\n' ∨ d = ']') → (d' = '\n' ∨ d' = ']') →
      rowText cols m i ++ d :: r = rowText cols' m' i ++ d' :: s → (m i 0 = m' i 0 ∧ tail cols m i = tail cols' m' i) ∧ d :: r = d' :: s := by
    intro i d d' r s hd hd' h
    rw [er, er] at h
    have pd : plain d = false := by rcases hd with rfl | rfl <;> decide
    have pd' : plain d' = false := by rcases hd' with rfl | rfl <;> decide
    obtain ⟨h1, h2⟩ := num_split (commas_ends pd _ r) (commas_ends pd' _ s) h
    have ne : d ≠ ',' := by rcases hd with rfl | rfl <;> decide
    have ne' : d' ≠ ',' := by rcases hd' with rfl | rfl <;> decide
    have := commas_inj2 pd ne pd' ne' _ _ r s h2
    exact ⟨⟨h1, this.1⟩, this.2⟩
  -- all rows after the first
  have rows_inj : ∀ (n n' : Nat) (i : Nat),
      ((List.range' i n).map fun row => lit "\n" ++ rowText cols m row).flatten ++ [']']
        = ((List.range' i n').map fun row => lit "\n" ++ rowText cols' m' row).flatten ++ [']'] →
      n = n' ∧ ∀ k, i ≤ k → k < i + n → m k 0 = m' k 0 ∧ tail cols m k = tail cols' m' k := by
    intro n
    induction n with
    | zero =>
      intro n' i h
      cases n' with
      | zero => exact ⟨rfl, by intros; omega⟩
      | succ n' => simp [List.range'_succ, lit_nl] at h
    | succ n ih =>
      intro n' i h
      cases n' with
      | zero => simp [List.range'_succ, lit_nl] at h
      | succ n' =>
        simp only [List.range'_succ, List.map_cons, List.flatten_cons, List.append_assoc] at h
        have h := List.append_cancel_left h
        have key : ∀ (c : Nat) (mm : Nat → Nat → Num) (k : Nat), ∃ d r, (d = '\n' ∨ d = ']') ∧
            ((List.range' (i + 1) k).map fun row => lit "\n" ++ rowText c mm row).flatten ++ [']'] = d :: r := by
          intro c mm k
          cases k with
          | zero => exact ⟨']', [], by simp, by simp⟩
          | succ k => exact ⟨'\n', _, by simp, by simp only [List.range'_succ, List.map_cons, List.flatten_cons, lit_nl,
              List.cons_append, List.nil_append]; rfl⟩
        obtain ⟨d, r, hd, e⟩ := key cols m n
        obtain ⟨d', s, hd', e'⟩ := key cols' m' n'
        have h0 := h
        rw [e, e'] at h
        obtain ⟨h1, h2⟩ := row i d d' r s hd hd' h
        rw [← e, ← e'] at h2
        obtain ⟨h3, h4⟩ := ih n' (i + 1) h2
        refine ⟨by rw [h3], ?_⟩
        intro k hk hk'
        rcases Nat.lt_or_ge i k with hlt | hge
        · exact h4 k hlt (by omega)
        · have : k = i := by omega
          subst this; exact h1
  have e : ∀ rows cols m, 0 < rows → 0 < cols → matrixText rows cols m = lit "MatrixXd:\n[" ++ (rowText cols m 0
      ++ (((List.range' 1 (rows - 1)).map fun row => lit "\n" ++ rowText cols m row).flatten ++ [']'])) := by
    intro rows cols m h1 h2
    rw [matrixText, if_pos ⟨h1, h2⟩, lit_rb]; simp only [List.append_assoc]
  rw [e _ _ _ hr hc, e _ _ _ hr' hc'] at h
  have h := List.append_cancel_left h
  have key : ∀ (c : Nat) (mm : Nat → Nat → Num) (k : Nat), ∃ d r, (d = '\n' ∨ d = ']') ∧
      ((List.range' 1 k).map fun row => lit "\n" ++ rowText c mm row).flatten ++ [']'] = d :: r := by
    intro c mm k
    cases k with
    | zero => exact ⟨']', [], by simp, by simp⟩
    | succ k => exact ⟨'\n', _, by simp, by simp only [List.range'_succ, List.map_cons, List.flatten_cons, lit_nl,
        List.cons_append, List.nil_append]; rfl⟩
  obtain ⟨d, r, hd, e1⟩ := key cols m (rows - 1)
  obtain ⟨d', s, hd', e1'⟩ := key cols' m' (rows' - 1)
  rw [e1, e1'] at h
  obtain ⟨h1, h2⟩ := row 0 d d' r s hd hd' h
  rw [← e1, ← e1'] at h2
  obtain ⟨h3, h4⟩ := rows_inj (rows - 1) (rows' - 1) 1 h2
  have all : ∀ k, k < rows → m k 0 = m' k 0 ∧ tail cols m k = tail cols' m' k := by
    intro k hk
    rcases Nat.eq_zero_or_pos k with rfl | hp
    · exact h1
    · exact h4 k hp (by omega)
  have hcc : cols = cols' := by
    have := congrArg List.length h1.2
    simp only [tail, List.length_map, List.length_range'] at this
    omega
  refine ⟨by omega, hcc, ?_⟩
  intro i j hi hj
  obtain ⟨a, b⟩ := all i hi
  rcases Nat.eq_zero_or_pos j with rfl | hp
  · exact a
  · subst hcc
    simp only [tail, List.map_inj_left] at b
    exact b j (by simp only [List.mem_range'_1]; omega)

/-- Empty matrices of any shape print alike. -/
example (m : Nat → Nat → Num) : matrixText 0 3 m = matrixText 3 0 m := by simp [matrixText]

end CRU.Print
