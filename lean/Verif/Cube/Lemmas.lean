import Verif.Cube.Model

/-! # Lemmas on scanning -/

namespace Sparc.Cube

@[simp] theorem ws_nl (l : List Sym) : ws (.nl :: l) = ws l := rfl
@[simp] theorem ws_tok (t : Tok) (l : List Sym) : ws (.tok t :: l) = .tok t :: l := rfl

theorem ws_ws : ∀ l : List Sym, ws (ws l) = ws l
  | [] => rfl
  | .nl :: l => ws_ws l
  | .tok _ :: _ => rfl

theorem scanLf_ws {a b : List Sym} (h : ws a = ws b) : scanLf a = scanLf b := by
  unfold scanLf; rw [h]

theorem scanInt_ws {a b : List Sym} (h : ws a = ws b) : scanInt a = scanInt b := by
  unfold scanInt; rw [h]

@[simp] theorem scanLf_dec (x : ℝ) (l : List Sym) : scanLf (.tok (.dec x) :: l) = some (x, l) := rfl
@[simp] theorem scanLf_int (x : ℤ) (l : List Sym) : scanLf (.tok (.int x) :: l) = some ((x : ℝ), l) := rfl
@[simp] theorem scanLf_nl (l : List Sym) : scanLf (.nl :: l) = scanLf l := rfl
@[simp] theorem scanInt_int (x : ℤ) (l : List Sym) : scanInt (.tok (.int x) :: l) = some (x, l) := rfl
@[simp] theorem scanInt_nl (l : List Sym) : scanInt (.nl :: l) = scanInt l := rfl
@[simp] theorem scanInt_wsl (l : List Sym) : scanInt (ws l) = scanInt l := scanInt_ws (ws_ws l)
@[simp] theorem scanLf_wsl (l : List Sym) : scanLf (ws l) = scanLf l := scanLf_ws (ws_ws l)
@[simp] theorem scanStr_tok (t : Tok) (l : List Sym) : scanStr (.tok t :: l) = some l := rfl
@[simp] theorem scanStr_nl (l : List Sym) : scanStr (.nl :: l) = scanStr l := rfl
@[simp] theorem dropLine_tok (t : Tok) (l : List Sym) : dropLine (.tok t :: l) = dropLine l := rfl
@[simp] theorem dropLine_nl (l : List Sym) : dropLine (.nl :: l) = .nl :: l := rfl
@[simp] theorem skipLine_tok (t : Tok) (l : List Sym) : skipLine (.tok t :: l) = ws (dropLine l) := rfl
@[simp] theorem skipLine_nl (l : List Sym) : skipLine (.nl :: l) = .nl :: l := rfl

theorem dropLine_words (t : List String) (r : List Sym) :
    dropLine (t.map (fun w => Sym.tok (.word w)) ++ .nl :: r) = .nl :: r := by
  induction t with
  | nil => rfl
  | cons a t ih => simpa using ih

theorem skipLine_words {t : List String} (ht : t ≠ []) (r : List Sym) :
    skipLine (t.map (fun w => Sym.tok (.word w)) ++ .nl :: r) = ws r := by
  cases t with
  | nil => exact absurd rfl ht
  | cons a t =>
    have := dropLine_words t r
    simp only [List.map_cons, List.cons_append, skipLine_tok, this, ws_nl]

/-- `loop` along a list of pieces of the file: each step takes one piece. -/
theorem loop_pieces {σ : Type} (f : ℕ → σ → Option σ) (P : ℕ → σ → Prop)
    (hstep : ∀ k s, P k s → ∃ s', f k s = some s' ∧ P (k + 1) s') :
    ∀ m k s, P k s → ∃ s', loop f k m s = some s' ∧ P (k + m) s' := by
  intro m
  induction m with
  | zero => intro k s h; exact ⟨s, rfl, h⟩
  | succ m ih =>
    intro k s h
    obtain ⟨s1, h1, h2⟩ := hstep k s h
    obtain ⟨s2, h3, h4⟩ := ih (k + 1) s1 h2
    refine ⟨s2, ?_, ?_⟩
    · rw [loop, h1]; exact h3
    · rw [show k + (m + 1) = k + 1 + m by ring]; exact h4

/-- The same with the bound in the step. -/
theorem loop_bound {σ : Type} (f : ℕ → σ → Option σ) (P : ℕ → σ → Prop) (n : ℕ)
    (hstep : ∀ k s, k < n → P k s → ∃ s', f k s = some s' ∧ P (k + 1) s') (s : σ) (h : P 0 s) :
    ∃ s', loop f 0 n s = some s' ∧ P n s' := by
  obtain ⟨s', h1, h2⟩ := loop_pieces (fun k s => if k < n then f k s else some s)
    (fun k s => P (min k n) s) (by
      intro k s hP
      by_cases hk : k < n
      · simp only [hk, if_true]
        rw [min_eq_left hk.le] at hP
        obtain ⟨s', h1, h2⟩ := hstep k s hk hP
        exact ⟨s', h1, by rw [min_eq_left (by omega)]; exact h2⟩
      · simp only [hk, if_false]
        refine ⟨s, rfl, ?_⟩
        rw [min_eq_right (by omega)] at hP ⊢
        exact hP) n 0 s (by simpa using h)
  have key : ∀ m k s, k + m ≤ n →
      loop (fun k s => if k < n then f k s else some s) k m s = loop f k m s := by
    intro m
    induction m with
    | zero => intros; rfl
    | succ m ih =>
      intro k s hk
      rw [loop, loop]
      have hk' : k < n := by omega
      simp only [hk', if_true]
      congr 1
      funext t
      exact ih (k + 1) t (by omega)
  rw [key n 0 s (by omega)] at h1
  exact ⟨s', h1, by simpa using h2⟩

theorem flat_cons {α : Type} (g : ℕ → List α) (k n : ℕ) (h : k < n) :
    (List.range' k (n - k)).flatMap g = g k ++ (List.range' (k + 1) (n - (k + 1))).flatMap g := by
  rw [show n - k = (n - (k + 1)) + 1 by omega, List.range'_succ, List.flatMap_cons]

/-- The atoms are skipped. -/
theorem skipAtoms_ok (F : Fmt) (atoms : List (ℤ × ℤ × (Fin 3 → ℝ))) (rest l : List Sym)
    (h : ws l = ws ((atoms.flatMap fun a =>
    [Sym.tok (.int a.1), .tok (.dec (F.f6 a.2.1)), .tok (.dec (F.f6 (a.2.2 0))), .tok (.dec (F.f6 (a.2.2 1))),
      .tok (.dec (F.f6 (a.2.2 2))), .nl]) ++ rest)) :
    ∃ l', skipAtoms atoms.length l = some l' ∧ ws l' = ws rest := by
  unfold skipAtoms
  generalize 0 = k
  induction atoms generalizing l k with
  | nil => exact ⟨l, rfl, by simpa using h⟩
  | cons a t ih =>
    rw [List.length_cons, loop]
    have e : skipNum l = some (Sym.tok (.dec (F.f6 a.2.1)) :: .tok (.dec (F.f6 (a.2.2 0))) ::
        .tok (.dec (F.f6 (a.2.2 1))) :: .tok (.dec (F.f6 (a.2.2 2))) :: .nl ::
        ((t.flatMap fun a =>
    [Sym.tok (.int a.1), .tok (.dec (F.f6 a.2.1)), .tok (.dec (F.f6 (a.2.2 0))), .tok (.dec (F.f6 (a.2.2 1))),
      .tok (.dec (F.f6 (a.2.2 2))), .nl]) ++ rest)) := by
      unfold skipNum
      rw [scanLf_ws h]
      simp
    obtain ⟨l', h1, h2⟩ := ih (.nl :: ((t.flatMap fun a =>
    [Sym.tok (.int a.1), .tok (.dec (F.f6 a.2.1)), .tok (.dec (F.f6 (a.2.2 0))), .tok (.dec (F.f6 (a.2.2 1))),
      .tok (.dec (F.f6 (a.2.2 2))), .nl]) ++ rest)) (by rw [ws_nl]) (k + 1)
    refine ⟨l', ?_, h2⟩
    rw [e]
    simpa [skipNum] using h1

theorem at3_lt {a b c i j k : ℕ} (hi : i < a) (hj : j < b) (hk : k < c) : at3 a b i j k < a * b * c := by
  unfold at3
  have h1 : i + j * a < a * b := by
    calc i + j * a < a + j * a := by omega
      _ = a * (j + 1) := by ring
      _ ≤ a * b := Nat.mul_le_mul_left _ hj
  calc i + j * a + k * a * b < a * b + k * a * b := by omega
    _ = a * b * (k + 1) := by ring
    _ ≤ a * b * c := Nat.mul_le_mul_left _ hk

/-- What the reader has done: the values read so far. -/
def Done (F : Fmt) (S : Sys) (rho d : ℕ → ℝ) (T : ℕ → ℕ → ℕ → Prop) : Prop :=
  ∀ i j k, T i j k → d (at3 (S.N 0) (S.N 1) i j k) = F.e6 (rho (at3 (S.N 0) (S.N 1) i j k))

theorem Done.update {F : Fmt} {S : Sys} {rho d : ℕ → ℝ} {T : ℕ → ℕ → ℕ → Prop} (h : Done F S rho d T)
    (i j k : ℕ) {x : ℝ} (hx : x = F.e6 (rho (at3 (S.N 0) (S.N 1) i j k))) :
    Done F S rho (Function.update d (at3 (S.N 0) (S.N 1) i j k) x)
      (fun i' j' k' => T i' j' k' ∨ (i' = i ∧ j' = j ∧ k' = k)) := by
  intro i' j' k' h'
  by_cases e : at3 (S.N 0) (S.N 1) i' j' k' = at3 (S.N 0) (S.N 1) i j k
  · rw [e, Function.update_self, hx]
  · rw [Function.update_of_ne e]
    rcases h' with h' | ⟨rfl, rfl, rfl⟩
    · exact h _ _ _ h'
    · exact absurd rfl e

theorem Done.mono {F : Fmt} {S : Sys} {rho d : ℕ → ℝ} {T T' : ℕ → ℕ → ℕ → Prop} (h : Done F S rho d T)
    (hT : ∀ i j k, T' i j k → T i j k) : Done F S rho d T' :=
  fun i j k h' => h i j k (hT i j k h')

/-- The whole body, for a reader taking one value per step and perhaps the white space after it. -/
theorem body_read (F : Fmt) (S : Sys) (rho : ℕ → ℝ)
    (f : ℕ → ℕ → ℕ → List Sym × (ℕ → ℝ) → Option (List Sym × (ℕ → ℝ)))
    (g : List Sym × (ℕ → ℝ) → List Sym × (ℕ → ℝ))
    (hf : ∀ i j k s r, i < S.N 0 → j < S.N 1 → k < S.N 2 →
      ws s.1 = .tok (.dec (F.e6 (rho (at3 (S.N 0) (S.N 1) i j k)))) :: (if k % 6 = 5 then [.nl] else []) ++ r →
      ∃ l, f i j k s = some (l, Function.update s.2 (at3 (S.N 0) (S.N 1) i j k)
        (F.e6 (rho (at3 (S.N 0) (S.N 1) i j k)))) ∧ ws l = ws r ∧ (l = r ∨ l = .nl :: r))
    (hg : ∀ l d r, (l = .nl :: r ∨ l = .nl :: .nl :: r) → ws (g (l, d)).1 = ws r ∧ (g (l, d)).2 = d)
    (l : List Sym) (d : ℕ → ℝ) (h2 : 0 < S.N 2) (hl : ws l = ws (body F S rho 0 (S.N 0))) :
    ∃ l' d', loop (fun i => loop (fun j s => (loop (fun k => f i j k) 0 (S.N 2) s).map g) 0 (S.N 1)) 0 (S.N 0)
        (l, d) = some (l', d') ∧
      Done F S rho d' (fun i j k => i < S.N 0 ∧ j < S.N 1 ∧ k < S.N 2) := by
  have main := loop_bound (fun i => loop (fun j s => (loop (fun k => f i j k) 0 (S.N 2) s).map g) 0 (S.N 1))
    (fun i s => ws s.1 = ws (body F S rho i (S.N 0 - i)) ∧
      Done F S rho s.2 (fun i' j k => i' < i ∧ j < S.N 1 ∧ k < S.N 2)) (S.N 0) ?_ (l, d)
      ⟨by simpa using hl, by rintro i j k ⟨h, -⟩; omega⟩
  · obtain ⟨⟨l', d'⟩, h1, -, h3⟩ := main
    exact ⟨l', d', h1, h3⟩
  rintro i s hi ⟨hs, hD⟩
  rw [body, flat_cons _ _ _ hi] at hs
  have mid := loop_bound (fun j s => (loop (fun k => f i j k) 0 (S.N 2) s).map g)
    (fun j s => ws s.1 = ws (plane F S rho i j (S.N 1 - j) ++ body F S rho (i + 1) (S.N 0 - (i + 1))) ∧
      Done F S rho s.2 (fun i' j' k => (i' < i ∧ j' < S.N 1 ∧ k < S.N 2) ∨ (i' = i ∧ j' < j ∧ k < S.N 2)))
    (S.N 1) ?_ s ⟨by simpa [body] using hs, hD.mono (by
      rintro i' j k (h | ⟨-, h, -⟩)
      · exact h
      · omega)⟩
  · obtain ⟨s', h1, h3, h4⟩ := mid
    refine ⟨s', h1, by simpa [plane] using h3, h4.mono ?_⟩
    rintro i' j k ⟨a, b, c⟩
    by_cases e : i' = i
    · exact Or.inr ⟨e, b, c⟩
    · exact Or.inl ⟨by omega, b, c⟩
  rintro j s hj ⟨hs, hD⟩
  rw [plane, flat_cons _ _ _ hj] at hs
  set rest := plane F S rho i (j + 1) (S.N 1 - (j + 1)) ++ body F S rho (i + 1) (S.N 0 - (i + 1)) with hrest
  have inn := loop_bound (fun k => f i j k)
    (fun k s => (k < S.N 2 → ws s.1 = row F S rho i j k (S.N 2 - k) ++ .nl :: rest) ∧
      (k = S.N 2 → (s.1 = .nl :: rest ∨ s.1 = .nl :: .nl :: rest)) ∧
      Done F S rho s.2 (fun i' j' k' => ((i' < i ∧ j' < S.N 1 ∧ k' < S.N 2) ∨ (i' = i ∧ j' < j ∧ k' < S.N 2)) ∨
        (i' = i ∧ j' = j ∧ k' < k))) (S.N 2) ?_ s
    ⟨fun _ => ?_, fun h => by omega, hD.mono (by
      rintro i' j' k (h | ⟨-, -, h⟩)
      · exact h
      · omega)⟩
  · obtain ⟨⟨l1, d1⟩, h1, -, h3, h4⟩ := inn
    obtain ⟨g1, g2⟩ := hg l1 d1 rest (h3 rfl)
    refine ⟨g (l1, d1), by simp [h1], g1, ?_⟩
    rw [g2]
    refine h4.mono ?_
    rintro i' j' k (h | ⟨a, b, c⟩)
    · exact Or.inl (Or.inl h)
    · by_cases e : j' = j
      · exact Or.inr ⟨a, e, c⟩
      · exact Or.inl (Or.inr ⟨a, by omega, c⟩)
  · rintro k s hk ⟨hs, -, hD⟩
    have hs := hs hk
    rw [row, flat_cons _ _ _ hk, List.append_assoc] at hs
    obtain ⟨l', h1, h3, h4⟩ := hf i j k s _ hi hj hk hs
    refine ⟨_, h1, fun hk' => ?_, fun hk' => ?_, ?_⟩
    · show ws l' = _
      rw [h3]
      have : row F S rho i j (k + 1) (S.N 2 - (k + 1)) ++ .nl :: rest =
        .tok (.dec (F.e6 (rho (at3 (S.N 0) (S.N 1) i j (k + 1))))) ::
          ((if (k + 1) % 6 = 5 then [.nl] else []) ++
            ((List.range' (k + 1 + 1) (S.N 2 - (k + 1 + 1))).flatMap fun k =>
    .tok (.dec (F.e6 (rho (at3 (S.N 0) (S.N 1) i j k)))) :: (if k % 6 = 5 then [.nl] else [])) ++ .nl :: rest) := by
        rw [row, flat_cons _ _ _ hk']; simp
      have e2 : (List.range' (k + 1) (S.N 2 - (k + 1))).flatMap (fun k =>
    Sym.tok (.dec (F.e6 (rho (at3 (S.N 0) (S.N 1) i j k)))) :: (if k % 6 = 5 then [Sym.nl] else [])) =
        row F S rho i j (k + 1) (S.N 2 - (k + 1)) := rfl
      rw [e2, this, ws_tok]
    · have e : S.N 2 - (k + 1) = 0 := by omega
      rw [e] at h4
      simpa using h4
    · refine (hD.update i j k rfl).mono ?_
      rintro i' j' k' (h | ⟨a, b, c⟩)
      · exact Or.inl (Or.inl h)
      · by_cases e : k' = k
        · exact Or.inr ⟨a, b, e⟩
        · exact Or.inl (Or.inr ⟨a, b, by omega⟩)
  · rw [hs]
    have : row F S rho i j 0 (S.N 2) = .tok (.dec (F.e6 (rho (at3 (S.N 0) (S.N 1) i j 0)))) ::
        ((if 0 % 6 = 5 then [Sym.nl] else []) ++ (List.range' (0 + 1) (S.N 2 - (0 + 1))).flatMap fun k =>
    .tok (.dec (F.e6 (rho (at3 (S.N 0) (S.N 1) i j k)))) :: (if k % 6 = 5 then [.nl] else [])) := by
      have := flat_cons (fun k => Sym.tok (.dec (F.e6 (rho (at3 (S.N 0) (S.N 1) i j k)))) ::
        (if k % 6 = 5 then [Sym.nl] else [])) 0 (S.N 2) h2
      simpa [row] using this
    simp only [Nat.sub_zero, List.append_assoc, List.cons_append, List.nil_append, this, ws_tok, hrest, plane]

end Sparc.Cube
