import Verif.Model.Cex

set_option linter.unusedVariables false
set_option linter.unusedSimpArgs false

namespace Nagini.Cex

/-! ## Dictionaries -/

theorem dictGet_set {α β : Type} [DecidableEq α] (d : Dict α β) (k k' : α) (v : β) :
    dictGet (dictSet d k v) k' = if k = k' then some v else dictGet d k' := by
  induction d with
  | nil => simp [dictSet, dictGet]
  | cons a d ih =>
    obtain ⟨a, b⟩ := a
    by_cases h : a = k
    · subst h
      by_cases h' : a = k' <;> simp [dictSet, dictGet, h']
    · by_cases h' : a = k'
      · subst h'
        simp [dictSet, dictGet, h, Ne.symm h]
      · simp [dictSet, dictGet, h, h', ih]

theorem dictGet_foldl_not {α β γ : Type} [DecidableEq α] (f : γ → α) (g : γ → β) (L : List γ) :
    ∀ (d : Dict α β) (k : α), k ∉ L.map f →
    dictGet (L.foldl (fun acc e => dictSet acc (f e) (g e)) d) k = dictGet d k := by
  induction L with
  | nil => intro d k h; rfl
  | cons e L ih =>
    intro d k h
    simp only [List.map_cons, List.mem_cons, not_or] at h
    rw [List.foldl_cons, ih _ _ h.2, dictGet_set, if_neg (Ne.symm h.1)]

theorem dictGet_foldl {α β γ : Type} [DecidableEq α] (f : γ → α) (g : γ → β) (L : List γ) :
    ∀ (d : Dict α β), (L.map f).Nodup → ∀ e ∈ L,
    dictGet (L.foldl (fun acc e => dictSet acc (f e) (g e)) d) (f e) = some (g e) := by
  induction L with
  | nil => intro d h e he; cases he
  | cons a L ih =>
    intro d h e he
    simp only [List.map_cons, List.nodup_cons] at h
    rw [List.foldl_cons]
    rcases List.mem_cons.1 he with he | he
    · subst he
      rw [dictGet_foldl_not f g L _ _ h.1, dictGet_set, if_pos rfl]
    · exact ih _ h.2 e he

theorem dictGet_mem {α β : Type} [DecidableEq α] {d : Dict α β} {k : α} {v : β} :
    dictGet d k = some v → (k, v) ∈ d := by
  induction d with
  | nil => intro h; cases h
  | cons a d ih =>
    obtain ⟨a, b⟩ := a
    by_cases h : a = k
    · subst h
      intro h; simp [dictGet] at h; simp [h]
    · intro h'; simp [dictGet, h] at h'; simp [ih h']

theorem dictGet_none {α β : Type} [DecidableEq α] {d : Dict α β} {k : α} :
    dictGet d k = none → ∀ v, (k, v) ∉ d := by
  induction d with
  | nil => intro _ v h; cases h
  | cons a d ih =>
    obtain ⟨a, b⟩ := a
    by_cases h : a = k
    · subst h
      intro h; simp [dictGet] at h
    · intro h' v hm
      simp [dictGet, h] at h'
      rcases List.mem_cons.1 hm with hm | hm
      · injection hm with e _; exact h e.symm
      · exact ih h' v hm

theorem dictSet_keys {α β : Type} [DecidableEq α] (d : Dict α β) (k : α) (v : β) :
    dictGet d k = none → dictSet d k v = d ++ [(k, v)] := by
  induction d with
  | nil => intro _; rfl
  | cons a d ih =>
    obtain ⟨a, b⟩ := a
    intro h
    by_cases h' : a = k
    · simp [dictGet, h'] at h
    · simp [dictGet, h'] at h
      simp [dictSet, h', ih h]

/-! ## Blanks -/

/-- Text without blanks. -/
def NoWs (w : Str) : Prop := ∀ c ∈ w, isWs c = false

theorem splitGo_word (w : Str) : ∀ cur rest, NoWs w →
    splitGo cur (w ++ rest) = splitGo (cur ++ w) rest := by
  induction w with
  | nil => intro cur rest _; simp
  | cons c w ih =>
    intro cur rest h
    have hc : isWs c = false := h c (by simp)
    simp only [List.cons_append, splitGo, hc]
    have := ih (cur ++ [c]) rest (fun d hd => h d (by simp [hd]))
    simpa using this

/-- Words joined by single blanks. -/
def Tidy (s : Str) : Prop :=
  ∃ ws : List Str, ws ≠ [] ∧ (∀ w ∈ ws, w ≠ [] ∧ NoWs w) ∧ s = joinSp ws

theorem splitGo_join : ∀ ws : List Str, (∀ w ∈ ws, w ≠ [] ∧ NoWs w) →
    splitGo [] (joinSp ws) = ws
  | [], _ => rfl
  | [w], h => by
    have hw := h w (by simp)
    have := splitGo_word w [] [] hw.2
    simp only [List.append_nil, List.nil_append] at this
    simp only [joinSp, this, splitGo]
    simp [hw.1]
  | w :: v :: ws, h => by
    have hw := h w (by simp)
    have ih := splitGo_join (v :: ws) (fun x hx => h x (by simp [hx]))
    have := splitGo_word w [] (' ' :: joinSp (v :: ws)) hw.2
    simp only [joinSp]
    rw [this]
    have hsp : isWs ' ' = true := by decide
    simp only [List.nil_append, splitGo, hsp, if_true]
    rw [ih]
    simp [hw.1]

theorem norm_tidy {s : Str} (h : Tidy s) : norm s = s := by
  obtain ⟨ws, _, h2, rfl⟩ := h
  rw [norm, splitGo_join ws h2]

theorem joinSp_cons (w : Str) {ws : List Str} (h : ws ≠ []) :
    joinSp (w :: ws) = w ++ ' ' :: joinSp ws := by
  cases ws with
  | nil => exact absurd rfl h
  | cons _ _ => rfl

theorem joinSp_append {vs ws : List Str} (hv : vs ≠ []) (hw : ws ≠ []) :
    joinSp (vs ++ ws) = joinSp vs ++ ' ' :: joinSp ws := by
  induction vs with
  | nil => exact absurd rfl hv
  | cons v vs ih =>
    cases vs with
    | nil => simp [joinSp_cons v hw, joinSp]
    | cons u us =>
      have h1 : (u :: us) ++ ws ≠ [] := by simp
      rw [List.cons_append, joinSp_cons v h1, ih (by simp), joinSp_cons v (by simp)]
      simp

theorem Tidy.word {w : Str} (h : w ≠ []) (h' : NoWs w) : Tidy w :=
  ⟨[w], by simp, by simp [h, h'], rfl⟩

theorem Tidy.sp {s t : Str} (hs : Tidy s) (ht : Tidy t) : Tidy (s ++ ' ' :: t) := by
  obtain ⟨ws, a1, a2, rfl⟩ := hs
  obtain ⟨vs, b1, b2, rfl⟩ := ht
  refine ⟨ws ++ vs, by simp [a1], ?_, (joinSp_append a1 b1).symm⟩
  intro w hw
  rcases List.mem_append.1 hw with h | h
  · exact a2 w h
  · exact b2 w h

theorem Tidy.pre {p s : Str} (hp : NoWs p) (hs : Tidy s) : Tidy (p ++ s) := by
  obtain ⟨ws, a1, a2, rfl⟩ := hs
  cases ws with
  | nil => exact absurd rfl a1
  | cons w ws =>
    refine ⟨(p ++ w) :: ws, by simp, ?_, ?_⟩
    · intro v hv
      rcases List.mem_cons.1 hv with h | h
      · subst h
        have := a2 w (by simp)
        refine ⟨by simp [this.1], ?_⟩
        intro c hc
        rcases List.mem_append.1 hc with h | h
        · exact hp c h
        · exact this.2 c h
      · exact a2 v (by simp [h])
    · cases ws with
      | nil => rfl
      | cons _ _ => simp [joinSp]

theorem Tidy.post {p s : Str} (hp : NoWs p) (hs : Tidy s) : Tidy (s ++ p) := by
  obtain ⟨ws, a1, a2, rfl⟩ := hs
  induction ws with
  | nil => exact absurd rfl a1
  | cons w ws ih =>
    cases ws with
    | nil =>
      have := a2 w (by simp)
      refine Tidy.word ?_ ?_
      · simp [joinSp, this.1]
      · intro c hc
        simp only [joinSp] at hc
        rcases List.mem_append.1 hc with h | h
        · exact this.2 c h
        · exact hp c h
    | cons v vs =>
      have h1 := ih (by simp) (fun x hx => a2 x (by simp [hx]))
      have h2 := a2 w (by simp)
      have := Tidy.sp (Tidy.word h2.1 h2.2) h1
      simpa [joinSp] using this

theorem GoodSym.noWs {a : Str} (h : GoodSym a) : NoWs a := by
  intro c hc
  have := h.2 c hc
  simp [isWs, this]

mutual
theorem tidy_show : ∀ t : SExp, t.Good → Tidy t.show
  | .atom a, h => by
    simp only [SExp.Good] at h
    simp only [SExp.show]
    exact Tidy.word h.1 h.noWs
  | .app f x xs, h => by
    simp only [SExp.Good] at h
    have hf : Tidy ('(' :: f) := Tidy.word (by simp) (by
      intro c hc
      rcases List.mem_cons.1 hc with h' | h'
      · subst h'; decide
      · exact h.1.noWs c h')
    have hx := tidy_show x h.2.1
    have h1 := tidy_more xs h.2.2 _ (hf.sp hx)
    have h2 := Tidy.post (p := [')']) (by intro c hc; simp at hc; subst hc; decide) h1
    simpa [SExp.show] using h2
theorem tidy_more : ∀ ts : List SExp, AllGood ts → ∀ s, Tidy s → Tidy (s ++ showMore ts)
  | [], _, s, hs => by simpa [showMore] using hs
  | y :: ys, h, s, hs => by
    simp only [AllGood] at h
    have h1 := hs.sp (tidy_show y h.1)
    have h2 := tidy_more ys h.2 _ h1
    simpa [showMore] using h2
end

/-! ## Splitting -/

theorem partsGo_word (w : Str) : ∀ d cur rest, (∀ c ∈ w, c ≠ '(' ∧ c ≠ ')' ∧ c ≠ ' ') →
    partsGo d cur (w ++ rest) = partsGo d (cur ++ w) rest := by
  induction w with
  | nil => intro d cur rest _; simp
  | cons c w ih =>
    intro d cur rest h
    have hc := h c (by simp)
    simp only [List.cons_append, partsGo, hc.1, hc.2.1, hc.2.2, if_false]
    have := ih d (cur ++ [c]) rest (fun e he => h e (by simp [he]))
    simpa using this

theorem GoodSym.plain {a : Str} (h : GoodSym a) : ∀ c ∈ a, c ≠ '(' ∧ c ≠ ')' ∧ c ≠ ' ' := by
  intro c hc
  have := h.2 c hc
  refine ⟨this.2.2.2.1, this.2.2.2.2, ?_⟩
  intro e; subst e
  exact absurd this.1 (by decide)

theorem partsGo_open (d : Int) (cur cs : Str) :
    partsGo d cur ('(' :: cs) = partsGo (d + 1) (cur ++ ['(']) cs := by
  rw [partsGo, if_pos rfl]

theorem partsGo_close (d : Int) (cur cs : Str) :
    partsGo d cur (')' :: cs) = partsGo (d - 1) (cur ++ [')']) cs := by
  rw [partsGo, if_neg (by decide), if_pos rfl]

theorem partsGo_sp (d : Int) (cur cs : Str) (h : d ≠ 0) :
    partsGo d cur (' ' :: cs) = partsGo d (cur ++ [' ']) cs := by
  rw [partsGo, if_neg (by decide), if_neg (by decide), if_neg (by simp [h])]

theorem partsGo_sep (cur cs : Str) :
    partsGo 0 cur (' ' :: cs) = cur :: partsGo 0 [] cs := by
  rw [partsGo, if_neg (by decide), if_neg (by decide), if_pos (by decide)]

mutual
theorem partsGo_show : ∀ t : SExp, t.Good → ∀ d cur rest, 0 ≤ d →
    partsGo d cur (t.show ++ rest) = partsGo d (cur ++ t.show) rest
  | .atom a, h, d, cur, rest, _ => by
    simp only [SExp.Good] at h
    simp only [SExp.show]
    exact partsGo_word a d cur rest h.plain
  | .app f x xs, h, d, cur, rest, hd => by
    simp only [SExp.Good] at h
    have e : (SExp.app f x xs).show ++ rest
        = '(' :: (f ++ ' ' :: (x.show ++ (showMore xs ++ ')' :: rest))) := by
      simp [SExp.show]
    rw [e, partsGo_open, partsGo_word f _ _ _ h.1.plain, partsGo_sp _ _ _ (by omega),
      partsGo_show x h.2.1 _ _ _ (by omega), partsGo_more xs h.2.2 _ _ _ (by omega),
      partsGo_close, show d + 1 - 1 = d by omega]
    simp [SExp.show]
theorem partsGo_more : ∀ ts : List SExp, AllGood ts → ∀ d cur rest, 0 < d →
    partsGo d cur (showMore ts ++ rest) = partsGo d (cur ++ showMore ts) rest
  | [], _, d, cur, rest, _ => by simp [showMore]
  | y :: ys, h, d, cur, rest, hd => by
    simp only [AllGood] at h
    have e : showMore (y :: ys) ++ rest = ' ' :: (y.show ++ (showMore ys ++ rest)) := by
      simp [showMore]
    rw [e, partsGo_sp _ _ _ (by omega), partsGo_show y h.1 _ _ _ (by omega),
      partsGo_more ys h.2 _ _ _ hd]
    simp [showMore]
end

theorem partsGo_top : ∀ ts : List SExp, AllGood ts → ∀ cur,
    partsGo 0 cur (showMore ts) = cur :: ts.map SExp.show
  | [], _, cur => by simp [showMore, partsGo]
  | y :: ys, h, cur => by
    simp only [AllGood] at h
    simp only [showMore, List.cons_append]
    rw [partsGo_sep, partsGo_show y h.1 _ _ _ (by omega), partsGo_top ys h.2]
    simp

theorem splitFirst_word (w rest : Str) : (∀ c ∈ w, c ≠ ' ') →
    splitFirst (w ++ ' ' :: rest) = .ok (w, rest) := by
  induction w with
  | nil => intro _; simp [splitFirst]
  | cons c w ih =>
    intro h
    have hc : c ≠ ' ' := h c (by simp)
    simp only [List.cons_append, splitFirst, hc, if_false]
    rw [ih (fun e he => h e (by simp [he]))]

theorem getParts_show (f : Str) (x : SExp) (xs : List SExp) (h : (SExp.app f x xs).Good) :
    getParts (SExp.app f x xs).show = .ok (f :: x.show :: xs.map SExp.show) := by
  simp only [SExp.Good] at h
  have e : (SExp.app f x xs).show.tail.dropLast = f ++ ' ' :: (x.show ++ showMore xs) := by
    have : (SExp.app f x xs).show.tail = (f ++ ' ' :: (x.show ++ showMore xs)) ++ [')'] := by
      simp [SExp.show]
    rw [this, List.dropLast_concat]
  rw [getParts, e, splitFirst_word f _ (fun c hc => (h.1.plain c hc).2.2)]
  have := partsGo_show x h.2.1 0 [] (showMore xs) (by omega)
  simp only [List.nil_append] at this
  simp only [this, partsGo_top xs h.2.2]

/-! ## Printing is injective -/

theorem show_head : ∀ t : SExp, t.Good → ∀ a, GoodSym a → t.show = a → t = .atom a
  | .atom b, _, a, _, h => by simp only [SExp.show] at h; rw [h]
  | .app f x xs, _, a, ha, h => by
    simp only [SExp.show, List.cons_append] at h
    have := (ha.plain '(' (by rw [← h]; simp)).1
    exact absurd rfl this

mutual
theorem show_inj : ∀ t u : SExp, t.Good → u.Good → t.show = u.show → t = u
  | .atom a, u, ht, hu, h => by
    simp only [SExp.Good] at ht
    exact (show_head u hu a ht (by rw [← h, SExp.show])).symm
  | .app f x xs, .atom b, ht, hu, h => by
    simp only [SExp.Good] at hu
    exact show_head _ ht b hu (by rw [h, SExp.show])
  | .app f x xs, .app g y ys, ht, hu, h => by
    have h1 := getParts_show f x xs ht
    rw [h, getParts_show g y ys hu] at h1
    simp only [Except.ok.injEq, List.cons.injEq] at h1
    obtain ⟨e1, e2, e3⟩ := h1
    simp only [SExp.Good] at ht hu
    rw [e1, show_inj x y ht.2.1 hu.2.1 e2.symm, show_injs xs ys ht.2.2 hu.2.2 e3.symm]
theorem show_injs : ∀ ts us : List SExp, AllGood ts → AllGood us →
    ts.map SExp.show = us.map SExp.show → ts = us
  | [], [], _, _, _ => rfl
  | [], _ :: _, _, _, h => by simp at h
  | _ :: _, [], _, _, h => by simp at h
  | t :: ts, u :: us, ht, hu, h => by
    simp only [AllGood] at ht hu
    simp only [List.map_cons, List.cons.injEq] at h
    rw [show_inj t u ht.1 hu.1 h.1, show_injs ts us ht.2 hu.2 h.2]
end

/-! ## Entries -/

theorem has_get {M : TModel} (hM : M.Good) {x : Str} {e : TEntry} (h : M.Has x e) :
    dictGet (extractModel M) x = some (extractEntry e) := by
  obtain ⟨h⟩ := h
  exact dictGet_foldl (fun a : Str × TEntry => a.1) (fun a => extractEntry a.2) M [] hM.2 (x, e) h

theorem not_has_get {M : TModel} {x : Str} (h : ∀ e, ¬ M.Has x e) :
    dictGet (extractModel M) x = none := by
  have : x ∉ M.map (fun a : Str × TEntry => a.1) := by
    intro hx
    obtain ⟨⟨y, e⟩, he, rfl⟩ := List.mem_map.1 hx
    exact h e ⟨he⟩
  have := dictGet_foldl_not (fun a : Str × TEntry => a.1) (fun a => extractEntry a.2) M [] x this
  exact this

theorem has_good {M : TModel} (hM : M.Good) {x : Str} {e : TEntry} (h : M.Has x e) : e.Good := by
  obtain ⟨h⟩ := h
  exact hM.1 _ h

theorem maps_good {e : TEntry} (he : e.Good) {xs : List SExp} {v : SExp} (h : e.Maps xs v) :
    v.Good := by
  cases h with
  | const => exact he
  | entry h => exact (he.2.1 _ h).2
  | default _ => exact he.1

theorem nodup_map_show {tb : List (List SExp × SExp)} (hg : ∀ e ∈ tb, AllGood e.1 ∧ e.2.Good)
    (hn : (tb.map Prod.fst).Nodup) :
    (tb.map fun e => e.1.map SExp.show).Nodup := by
  induction tb with
  | nil => simp
  | cons a tb ih =>
    simp only [List.map_cons, List.nodup_cons] at hn ⊢
    refine ⟨?_, ih (fun e he => hg e (by simp [he])) hn.2⟩
    intro h
    obtain ⟨b, hb, hbe⟩ := List.mem_map.1 h
    apply hn.1
    have := show_injs b.1 a.1 (hg b (by simp [hb])).1 (hg a (by simp)).1 hbe
    rw [← this]
    exact List.mem_map.2 ⟨b, hb, rfl⟩

theorem map_norm_show : ∀ xs : List SExp, AllGood xs →
    (xs.map SExp.show).map norm = xs.map SExp.show
  | [], _ => rfl
  | x :: xs, h => by
    simp only [AllGood] at h
    simp only [List.map_cons, norm_tidy (tidy_show x h.1), map_norm_show xs h.2]

theorem maps_get {M : TModel} (hM : M.Good) {f : Str} {e : TEntry} (hf : M.Has f e)
    {xs : List SExp} (hx : AllGood xs) {v : SExp} (h : e.Maps xs v) :
    getFuncValue (extractModel M) f (xs.map SExp.show) = .ok v.show := by
  have he := has_good hM hf
  rw [getFuncValue, has_get hM hf]
  cases h with
  | const => rfl
  | entry h =>
    rename_i tb d
    simp only [extractEntry, map_norm_show xs hx]
    have := dictGet_foldl (fun e : List SExp × SExp => e.1.map SExp.show) (fun e => e.2.show) tb []
      (nodup_map_show he.2.1 he.2.2) _ h
    simp only at this
    rw [this]
  | default h =>
    rename_i tb
    simp only [extractEntry, map_norm_show xs hx]
    have hn : xs.map SExp.show ∉ tb.map (fun e : List SExp × SExp => e.1.map SExp.show) := by
      intro hm
      obtain ⟨b, hb, hbe⟩ := List.mem_map.1 hm
      have := show_injs b.1 xs (he.2.1 b hb).1 hx hbe
      exact h b.2 (by rw [← this]; exact hb)
    have := dictGet_foldl_not (fun e : List SExp × SExp => e.1.map SExp.show)
      (fun e => e.2.show) tb [] _ hn
    rw [this]
    rfl

/-! ## Numbers -/

theorem toDigits_ne (n : Nat) : Nat.toDigits 10 n ≠ [] := by
  intro h
  have := Nat.length_toDigits_pos (b := 10) (n := n)
  rw [h] at this
  simp at this

theorem isDigit_notWs {c : Char} (h : c.isDigit = true) : isWs c = false := by
  by_cases h' : isWs c = true
  · have : c = ' ' ∨ c = '\t' ∨ c = '\r' ∨ c = '\n' ∨ c = '\x0b' ∨ c = '\x0c' := by
      simpa [isWs, Char.isWhitespace, or_assoc] using h'
    rcases this with e | e | e | e | e | e <;> subst e <;> exact absurd h (by decide)
  · simpa using h'

theorem digit_mem {n : Nat} {c : Char} (h : c ∈ Nat.toDigits 10 n) : c.isDigit = true :=
  Nat.isDigit_of_mem_toDigits (by omega) (by omega) h

theorem digits_good (n : Nat) : GoodSym (Nat.toDigits 10 n) := by
  refine ⟨toDigits_ne n, ?_⟩
  intro c hc
  have hd := digit_mem hc
  have hw := isDigit_notWs hd
  refine ⟨?_, ?_, ?_, ?_, ?_⟩
  · simp [isWs] at hw; exact hw.1.1
  all_goals (intro e; subst e; exact absurd hd (by decide))

theorem numeral_good : ∀ n : Int, (numeral n).Good
  | .ofNat n => by
    simp only [numeral, SExp.Good]
    exact digits_good n
  | .negSucc n => by
    simp only [numeral, SExp.Good, AllGood]
    exact ⟨⟨by simp, by intro c hc; simp at hc; subst hc; decide⟩, digits_good _, trivial⟩

theorem dropWhile_none {p : Char → Bool} : ∀ {l : Str}, (∀ c ∈ l, p c = false) → l.dropWhile p = l
  | [], _ => rfl
  | c :: l, h => by simp [List.dropWhile, h c (by simp)]

theorem strip_noWs {s : Str} (h : NoWs s) : strip s = s := by
  rw [strip, dropWhile_none h, dropWhile_none (l := s.reverse), List.reverse_reverse]
  intro c hc
  exact h c (by simpa using hc)

theorem pyNat_digits (n : Nat) : pyNat (Nat.toDigits 10 n) = some (n : Int) := by
  have h2 : (Nat.toDigits 10 n).all Char.isDigit = true := by
    rw [List.all_eq_true]; intro c hc; exact digit_mem hc
  rw [pyNat, h2, Nat.ofDigitChars_toDigits (by omega) (by omega)]
  simp [toDigits_ne n]

theorem pyInt_digits (s : Str) (n : Nat) (h : strip s = Nat.toDigits 10 n) :
    pyInt s = some (n : Int) := by
  rw [pyInt, h]
  split
  · rename_i e
    have := digit_mem (n := n) (c := '-') (by rw [e]; simp)
    exact absurd this (by decide)
  · rename_i e
    have := digit_mem (n := n) (c := '+') (by rw [e]; simp)
    exact absurd this (by decide)
  · exact pyNat_digits n

theorem digits_noWs (n : Nat) : NoWs (Nat.toDigits 10 n) :=
  fun c hc => isDigit_notWs (digit_mem hc)

theorem strip_sp (s : Str) : strip (' ' :: s) = strip s := by
  rw [strip, List.dropWhile_cons_of_pos (by decide), strip]

theorem digits_head {n : Nat} : ∃ c cs, Nat.toDigits 10 n = c :: cs ∧ c.isDigit = true := by
  match h : Nat.toDigits 10 n with
  | [] => exact absurd h (toDigits_ne n)
  | c :: cs => exact ⟨c, cs, rfl, digit_mem (n := n) (by rw [h]; simp)⟩

/-! ## Terms -/

mutual
/-- No negative integer literals. -/
def Term.NoNeg : Term → Prop
  | .unit | .null | .var _ | .seqNil | .other => True
  | .int n => 0 ≤ n
  | .app _ args => NoNegs args
  | .combine a b | .seqAppend a b | .predLookup _ a b => a.NoNeg ∧ b.NoNeg
  | .first t | .second t | .wrap _ _ t | .seqSingle t => t.NoNeg
/-- No negative integer literals in a list of terms. -/
def NoNegs : List Term → Prop
  | [] => True
  | t :: ts => t.NoNeg ∧ NoNegs ts
end

theorem symbol_eq {M : TModel} (hM : M.Good) {f g : Str} (h : SymbolOf M f g) :
    symbolFor (extractModel M) f = g := by
  cases h with
  | limited h =>
    rw [symbolFor, has_get hM h]
    exact if_pos rfl
  | plain h1 h2 =>
    rw [symbolFor, not_has_get h1, has_get hM h2]
    exact (if_neg (by simp)).trans (if_pos rfl)
  | angle h1 h2 =>
    rw [symbolFor, not_has_get h1, not_has_get h2]
    refine ((if_neg (by simp)).trans (if_neg (by simp))).trans ?_
    rw [List.map_map]
    congr 1
    funext c
    by_cases h : c = '['
    · subst h; rfl
    · simp [h]

theorem isCombine_show (x y : SExp) :
    isCombine (SExp.app "$Snap.combine".toList x [y]).show = true := by
  have : (SExp.app "$Snap.combine".toList x [y]).show
      = "($Snap.combine ".toList ++ (x.show ++ showMore [y] ++ [')']) := by
    simp [SExp.show]
  rw [this, isCombine]
  simp

theorem combine_sym : GoodSym "$Snap.combine".toList := by
  refine ⟨by decide, ?_⟩
  decide

theorem create_split : "str___create__%limited".toList
    = "str___create__".toList ++ "%limited".toList := by
  decide +kernel

theorem not_create {f : Str} (h : f ≠ "str___create__".toList) :
    ¬ f ++ "%limited".toList = "str___create__%limited".toList := by
  rw [create_split]
  intro e
  exact h (List.append_cancel_right_eq _ _ _ |>.mp e)

mutual
theorem eval_den {M : TModel} (hM : M.Good) : ∀ {t v}, Den M t v → t.NoNeg →
    evalTerm (extractModel M) t = .ok v.show ∧ v.Good
  | _, _, .unit, _ => by
    refine ⟨rfl, ?_⟩
    simp only [SExp.Good]
    exact ⟨by decide, by decide⟩
  | _, _, .int (n := .ofNat n), h => by
    refine ⟨?_, numeral_good _⟩
    simp only [evalTerm, showInt, numeral, SExp.show]
  | _, _, .int (n := .negSucc n), h => by
    simp only [Term.NoNeg] at h
    exact absurd h (by omega)
  | _, _, .null h, _ => by
    refine ⟨?_, has_good hM h⟩
    rw [evalTerm, has_get hM h]
    rfl
  | _, _, .var h, _ => by
    refine ⟨?_, has_good hM h⟩
    rw [evalTerm, has_get hM h]
    rfl
  | _, _, .app (f := f) h1 h2 h3 h4 h5, hn => by
    simp only [Term.NoNeg] at hn
    have h6 := evals_den hM h4 hn
    refine ⟨?_, maps_good (has_good hM h3) h5⟩
    have hc := not_create h1
    rw [evalTerm, if_neg hc, h6.1, ← maps_get hM h3 h6.2 h5, ← symbol_eq hM h2]
  | _, _, .combine h1 h2, hn => by
    simp only [Term.NoNeg] at hn
    have e1 := eval_den hM h1 hn.1
    have e2 := eval_den hM h2 hn.2
    refine ⟨?_, ?_⟩
    · simp only [evalTerm, e1.1, e2.1]
      simp [SExp.show, showMore]
    · simp only [SExp.Good, AllGood]
      exact ⟨combine_sym, e1.2, e2.2, trivial⟩
  | _, _, .first (x := x) (y := y) h, hn => by
    simp only [Term.NoNeg] at hn
    have e := eval_den hM h hn
    refine ⟨?_, ?_⟩
    · simp only [evalTerm, e.1, isCombine_show, if_true, getParts_show _ _ _ e.2]
      rfl
    · have := e.2
      simp only [SExp.Good] at this
      exact this.2.1
  | _, _, .second (x := x) (y := y) h, hn => by
    simp only [Term.NoNeg] at hn
    have e := eval_den hM h hn
    refine ⟨?_, ?_⟩
    · simp only [evalTerm, e.1, isCombine_show, if_true, getParts_show _ _ _ e.2]
      rfl
    · have := e.2
      simp only [SExp.Good, AllGood] at this
      exact this.2.2.1
  | _, _, .wrap h1 h2 h3, hn => by
    simp only [Term.NoNeg] at hn
    have e := eval_den hM h1 hn
    refine ⟨?_, maps_good (has_good hM h2) h3⟩
    simp only [evalTerm, e.1]
    exact maps_get hM h2 (xs := [_]) (by simp only [AllGood]; exact ⟨e.2, trivial⟩) h3
  | _, _, .predLookup h1 h2 h3 h4, hn => by
    simp only [Term.NoNeg] at hn
    have e1 := eval_den hM h1 hn.1
    have e2 := eval_den hM h2 hn.2
    refine ⟨?_, maps_good (has_good hM h3) h4⟩
    simp only [evalTerm, e1.1, e2.1]
    exact maps_get hM h3 (xs := [_, _])
      (by simp only [AllGood]; exact ⟨e1.2, e2.2, trivial⟩) h4
theorem evals_den {M : TModel} (hM : M.Good) : ∀ {ts vs}, DenAll M ts vs → NoNegs ts →
    evalAll (extractModel M) ts = .ok (vs.map SExp.show) ∧ AllGood vs
  | _, _, .nil, _ => by simp [evalAll, AllGood]
  | _, _, .cons h1 h2, hn => by
    simp only [NoNegs] at hn
    have e1 := eval_den hM h1 hn.1
    have e2 := evals_den hM h2 hn.2
    simp only [evalAll, e1.1, e2.1, AllGood]
    exact ⟨rfl, e1.2, e2.2⟩
end

theorem eval_spells (m : Model) {t : Term} {s : Str} (h : Spells t s) :
    evalTerm m t = .ok s := by
  induction h with
  | nil => rfl
  | @single c =>
    have h1 : pyInt (Nat.toDigits 10 c.toNat) = some (c.toNat : Int) :=
      pyInt_digits _ _ (strip_noWs (digits_noWs _))
    have h2 : pyChr (c.toNat : Int) = some c := by
      have hv : c.toNat.isValidChar := c.valid
      have : ¬ (c.toNat : Int) < 0 := by omega
      simp [pyChr, this, hv]
    have h3 : showInt (c.toNat : Int) = Nat.toDigits 10 c.toNat := rfl
    simp only [evalTerm, h3, h1, Option.bind_some, h2]
  | append _ _ ih1 ih2 => simp only [evalTerm, ih1, ih2]

/-! ## Numbers in the model -/

theorem parseInt_numeral : ∀ n : Int, parseInt (numeral n).show = .ok (.int n)
  | .ofNat n => by
    simp only [numeral, SExp.show]
    obtain ⟨c, cs, hc, hd⟩ := digits_head (n := n)
    have hp : "(-".toList.isPrefixOf (Nat.toDigits 10 n) = false := by
      rw [hc]
      have : ('(' == c) = false := by
        by_cases h : '(' = c
        · subst h; exact absurd hd (by decide)
        · simpa using h
      simp [List.isPrefixOf, this]
    rw [parseInt, hp, pyInt_digits _ n (strip_noWs (digits_noWs n))]
    rfl
  | .negSucc n => by
    have e : (numeral (.negSucc n)).show = '(' :: '-' :: ' ' :: (Nat.toDigits 10 (n + 1) ++ [')']) := by
      simp [numeral, SExp.show, showMore]
    have hp : "(-".toList.isPrefixOf (numeral (.negSucc n)).show = true := by
      rw [e]; rfl
    have hs : [')'].isSuffixOf (numeral (.negSucc n)).show = true := by
      rw [e]
      simp [List.isSuffixOf, List.isPrefixOf]
    have hd : ((numeral (.negSucc n)).show.drop 2).dropLast = ' ' :: Nat.toDigits 10 (n + 1) := by
      rw [e]
      have : List.drop 2 ('(' :: '-' :: ' ' :: (Nat.toDigits 10 (n + 1) ++ [')']))
          = (' ' :: Nat.toDigits 10 (n + 1)) ++ [')'] := rfl
      rw [this, List.dropLast_concat]
    rw [parseInt, hp, hs, hd, pyInt_digits _ (n + 1) (by rw [strip_sp, strip_noWs (digits_noWs _)])]
    rfl

/-! ## Names -/

theorem toDigits_inj {m n : Nat} (h : Nat.toDigits 10 m = Nat.toDigits 10 n) : m = n := by
  have h1 := Nat.ofDigitChars_toDigits (b := 10) (n := m) (by omega) (by omega)
  have h2 := Nat.ofDigitChars_toDigits (b := 10) (n := n) (by omega) (by omega)
  rw [h] at h1
  exact h1.symm.trans h2

theorem freshName_form (rv : RefMap) (base : Str) (t : PyT) : ∀ fuel i,
    ∃ k, freshName rv base t fuel i = base ++ Nat.toDigits 10 k
  | 0, i => ⟨i, rfl⟩
  | fuel + 1, i => by
    rw [freshName]
    split
    · exact freshName_form rv base t fuel (i + 1)
    · exact ⟨i, rfl⟩

theorem freshName_fresh (rv : RefMap) (base : Str) (t : PyT) : ∀ fuel i,
    (∃ k, i ≤ k ∧ k < i + fuel ∧ (base ++ Nat.toDigits 10 k, t) ∉ rv.map Prod.snd) →
    (freshName rv base t fuel i, t) ∉ rv.map Prod.snd
  | 0, i, ⟨k, h1, h2, _⟩ => by omega
  | fuel + 1, i, ⟨k, h1, h2, h3⟩ => by
    rw [freshName]
    split
    · rename_i hc
      have hc : (base ++ Nat.toDigits 10 i, t) ∈ rv.map Prod.snd := by simpa using hc
      refine freshName_fresh rv base t fuel (i + 1) ⟨k, ?_, by omega, h3⟩
      by_cases e : i = k
      · subst e; exact absurd hc h3
      · omega
    · rename_i hc
      simpa using hc

theorem exists_free (vals : List (Str × PyT)) (base : Str) (t : PyT) :
    ∃ k, k < vals.length + 1 ∧ (base ++ Nat.toDigits 10 k, t) ∉ vals := by
  apply Classical.byContradiction
  intro hn
  have hall : ∀ k, k < vals.length + 1 → (base ++ Nat.toDigits 10 k, t) ∈ vals := by
    intro k hk
    apply Classical.byContradiction
    intro h
    exact hn ⟨k, hk, h⟩
  have h1 : ((List.range (vals.length + 1)).map fun k => (base ++ Nat.toDigits 10 k, t)).Nodup := by
    refine List.Pairwise.map _ ?_ (List.nodup_range (n := vals.length + 1))
    intro a b hab e
    injection e with e _
    exact hab (toDigits_inj (List.append_cancel_left e))
  have h2 := List.Nodup.length_le_of_subset h1 (l₂ := vals) (by
    intro x hx
    obtain ⟨k, hk, rfl⟩ := List.mem_map.1 hx
    exact hall k (by simpa using hk))
  simp at h2
  omega

theorem register_fresh (rv : RefMap) (val base : Str) (t : PyT) :
    ((register rv val base t).1, t) ∉ rv.map Prod.snd := by
  obtain ⟨k, h1, h2⟩ := exists_free (rv.map Prod.snd) base t
  rw [List.length_map] at h1
  exact freshName_fresh rv base t _ 0 ⟨k, by omega, by omega, h2⟩

/-- How names are formed. -/
def NameForm (C : Nat → Cls) (e : Str × PyT) : Prop :=
  e.1 = "None".toList ∨ (∃ i, e.1 = '?' :: Nat.toDigits 10 i) ∨
  ∃ a i, typeName C e.2 = .ok a ∧ e.1 = a ++ Nat.toDigits 10 i

/-- What holds for the names given so far. -/
structure RvOk (C : Nat → Cls) (rv : RefMap) : Prop where
  form : ∀ e ∈ rv, NameForm C e.2
  keys : rv.Pairwise fun a b => a.1 ≠ b.1
  pairs : rv.Pairwise fun a b => a.2 = b.2 → a.2.1 = "None".toList

theorem RvOk.add {C : Nat → Cls} {rv : RefMap} (h : RvOk C rv) {val : Str} {e : Str × PyT}
    (hv : dictGet rv val = none) (hf : NameForm C e)
    (hp : e.1 = "None".toList ∨ e ∉ rv.map Prod.snd) :
    RvOk C (rv ++ [(val, e)]) := by
  refine ⟨?_, ?_, ?_⟩
  · intro x hx
    rcases List.mem_append.1 hx with hx | hx
    · exact h.form x hx
    · simp at hx; subst hx; exact hf
  · rw [List.pairwise_append]
    refine ⟨h.keys, by simp, ?_⟩
    intro a ha b hb e'
    simp at hb; subst hb
    obtain ⟨a1, a2⟩ := a
    simp only at e'
    subst e'
    exact dictGet_none hv a2 ha
  · rw [List.pairwise_append]
    refine ⟨h.pairs, by simp, ?_⟩
    intro a ha b hb e'
    simp at hb; subst hb
    rcases hp with hp | hp
    · rw [e']; exact hp
    · exact absurd (List.mem_map.2 ⟨a, ha, e'⟩) hp

theorem register_step {rv rv' : RefMap} {val base n : Str} {t : PyT}
    (h : register rv val base t = (n, rv')) (hg : dictGet rv val = none) :
    rv' = rv ++ [(val, (n, t))] ∧ (n, t) ∉ rv.map Prod.snd ∧
      ∃ k, n = base ++ Nat.toDigits 10 k := by
  have h1 : n = freshName rv base t (rv.length + 1) 0 := by
    rw [register] at h; injection h with h1 _; exact h1.symm
  have h2 : rv' = dictSet rv val (n, t) := by
    rw [register] at h; injection h with h1 h2; rw [← h1]; exact h2.symm
  refine ⟨by rw [h2, dictSet_keys rv val _ hg], ?_, ?_⟩
  · have := register_fresh rv val base t
    rw [h] at this
    exact this
  · rw [h1]
    exact freshName_form rv base t _ _

theorem refName_step {C : Nat → Cls} {m : Model} {noneC fuel : Nat} {rv rv' : RefMap} {val n : Str}
    {t : PyT} (h : refName C m noneC fuel rv val t = .ok (n, rv')) (hr : RvOk C rv) :
    RvOk C rv' ∧ (∃ t', (val, (n, t')) ∈ rv') ∧ ∃ ext, rv' = rv ++ ext := by
  rw [refName] at h
  split at h
  · rename_i n' t' hg
    injection h with h
    injection h with h1 h2
    subst h1; subst h2
    exact ⟨hr, ⟨t', dictGet_mem hg⟩, [], by simp⟩
  · rename_i hg
    split at h
    · injection h with h
      obtain ⟨h2, hfr, k, hk⟩ := register_step h hg
      rw [h2]
      exact ⟨hr.add hg (.inr (.inl ⟨k, hk⟩)) (.inr hfr), ⟨t, by simp⟩, _, rfl⟩
    · exact absurd h (by simp)
    · rename_i a ha
      split at h
      · exact absurd h (by simp)
      · split at h
        · injection h with h
          injection h with h1 h2
          rw [dictSet_keys rv val _ hg] at h2
          subst h1; subst h2
          exact ⟨hr.add hg (.inl rfl) (.inl rfl), ⟨a, by simp⟩, _, rfl⟩
        · split at h
          · exact absurd h (by simp)
          · rename_i base hb
            injection h with h
            obtain ⟨h2, hfr, k, hk⟩ := register_step h hg
            rw [h2]
            exact ⟨hr.add hg (.inr (.inr ⟨base, k, hb, hk⟩)) (.inr hfr), ⟨a, by simp⟩, _, rfl⟩

theorem nameAll_spec {C : Nat → Cls} {m : Model} {noneC fuel : Nat} (reqs : List (Str × PyT)) :
    ∀ {rv rv' : RefMap} {ns : List Str}, nameAll C m noneC fuel rv reqs = .ok (ns, rv') → RvOk C rv →
    RvOk C rv' ∧ (∃ ext, rv' = rv ++ ext) ∧
      ∀ p ∈ reqs.zip ns, ∃ t', (p.1.1, (p.2, t')) ∈ rv' := by
  induction reqs with
  | nil =>
    intro rv rv' ns h hr
    simp only [nameAll] at h
    injection h with h
    injection h with h1 h2
    subst h2
    exact ⟨hr, ⟨[], by simp⟩, by simp⟩
  | cons r reqs ih =>
    obtain ⟨v, t⟩ := r
    intro rv rv' ns h hr
    simp only [nameAll] at h
    split at h
    · exact absurd h (by simp)
    · rename_i n rv1 h1
      split at h
      · exact absurd h (by simp)
      · rename_i ns1 rv2 h2
        injection h with h
        injection h with e1 e2
        subst e1; subst e2
        obtain ⟨a1, ⟨t', a2⟩, a3⟩ := refName_step h1 hr
        obtain ⟨b1, ⟨ext, b2⟩, b3⟩ := ih h2 a1
        obtain ⟨ext', a3⟩ := a3
        refine ⟨b1, ⟨ext' ++ ext, by rw [b2, a3]; simp⟩, ?_⟩
        intro p hp
        simp only [List.zip_cons_cons, List.mem_cons] at hp
        rcases hp with hp | hp
        · subst hp
          exact ⟨t', by rw [b2]; exact List.mem_append_left _ a2⟩
        · exact b3 p hp

theorem pairwise_mem {α : Type} {R : α → α → Prop} {l : List α} (h : l.Pairwise R) {a b : α}
    (ha : a ∈ l) (hb : b ∈ l) : a = b ∨ R a b ∨ R b a := by
  induction h with
  | nil => cases ha
  | cons h1 _ ih =>
    rcases List.mem_cons.1 ha with ha' | ha' <;> rcases List.mem_cons.1 hb with hb' | hb'
    · exact .inl (ha'.trans hb'.symm)
    · rw [ha']; exact .inr (.inl (h1 b hb'))
    · rw [hb']; exact .inr (.inr (h1 a ha'))
    · exact ih ha' hb'

theorem digits_last (a : Str) (n : Nat) : ∃ c, (a ++ Nat.toDigits 10 n).getLast? = some c ∧
    c.isDigit = true := by
  have hne := toDigits_ne n
  refine ⟨(Nat.toDigits 10 n).getLast hne, ?_, digit_mem (List.getLast_mem hne)⟩
  rw [List.getLast?_append, List.getLast?_eq_some_getLast hne]
  rfl

theorem none_last (a : Str) (n : Nat) : "None".toList ≠ a ++ Nat.toDigits 10 n := by
  intro h
  obtain ⟨c, h1, h2⟩ := digits_last a n
  rw [← h] at h1
  have : c = 'e' := by
    have h3 : "None".toList.getLast? = some 'e' := by decide +kernel
    rw [h3] at h1
    injection h1 with h1
    exact h1.symm
  subst this
  exact absurd h2 (by decide)

/-! ## Types -/

theorem truthy_true : (Shown.bool true).truthy = true := rfl

theorem parseBool_true : parseBool (SExp.atom "true".toList).show = .bool true := by
  decide +kernel

theorem parseBool_false : parseBool (SExp.atom "false".toList).show = .bool false := by
  decide +kernel

theorem sub_get {M : TModel} (hM : M.Good) {v T r : SExp} (hv : v.Good) (hT : T.Good) {e : TEntry}
    (he : M.Has "issubtype<Bool>".toList e) (hm : e.Maps [v, T] r) :
    getFuncValue (extractModel M) "issubtype<Bool>".toList [v.show, T.show] = .ok r.show :=
  maps_get hM he (xs := [v, T]) (by simp only [AllGood]; exact ⟨hv, hT, trivial⟩) hm

theorem isTypeOf_same (m : Model) (v : Str) : isTypeOf m v (.ok v) = .ok (.bool true) := by
  simp [isTypeOf]

theorem isTypeOf_sub {M : TModel} (hM : M.Good) {v T r : SExp} (hv : v.Good) (hT : T.Good)
    {e : TEntry} (he : M.Has "issubtype<Bool>".toList e) (hm : e.Maps [v, T] r) (hne : T ≠ v) :
    isTypeOf (extractModel M) v.show (.ok T.show) = .ok (parseBool r.show) := by
  have : ¬ T.show = v.show := fun e => hne (show_inj T v hT hv e)
  rw [isTypeOf]
  simp only [if_neg this]
  rw [sub_get hM hv hT he hm]

theorem typeOf_get {M : TModel} (hM : M.Good) {v T : SExp} (hv : v.Good) {e : TEntry}
    (he : M.Has "typeof<PyType>".toList e) (hm : e.Maps [v] T) :
    typeOf (extractModel M) v.show = .ok T.show :=
  maps_get hM he (xs := [v]) (by simp only [AllGood]; exact ⟨hv, trivial⟩) hm

theorem typeValStr_get {M : TModel} (hM : M.Good) {t : Str} {T : SExp}
    (h : M.Has (t ++ "<PyType>".toList) (.const T)) :
    typeValStr (extractModel M) t = .ok T.show := by
  rw [typeValStr, has_get hM h]
  rfl

theorem typeValStr_none {M : TModel} {t : Str}
    (h : ∀ e, ¬ M.Has (t ++ "<PyType>".toList) e) :
    typeValStr (extractModel M) t = .error .keyError := by
  rw [typeValStr, not_has_get h]

theorem preciseType_step {C : Nat → Cls} {m : Model} {noneC fuel d b : Nat} {v : Str}
    (p1 : (C b).tvars = []) (p2 : (C d).name ≠ "tuple".toList)
    (hit : isType C m v (.cls d) = .ok (.bool true))
    (hb : basicType C m fuel v d = .ok b) :
    preciseType C m noneC (fuel + 1) v (.cls d) =
          match firstSub C m v (C b).subs with
          | .error e => .error e
          | .ok (some s) => preciseType C m noneC fuel v (.cls s)
          | .ok none => .ok (.cls d) := by
  have hit' : isType C m v (.cls (PyT.cls d).pcls) = .ok (.bool true) := hit
  have hb' : basicType C m fuel v (PyT.cls d).pcls = .ok b := hb
  rw [preciseType, if_neg (show ¬ (C (PyT.cls d).pcls).name = "tuple".toList from p2), hit']
  simp only [Shown.truthy, Bool.not_true, Bool.false_eq_true, if_false]
  rw [hb']
  simp only
  rcases firstSub C m v (C b).subs with e | (_ | s)
  · rfl
  · simp [p1]
  · rfl
  · exact fun _ h => by cases h

theorem isType_plain {C : Nat → Cls} {m : Model} {d : Nat} {v : Str}
   (p1 : (C d).tvars = []) (p2 : (C d).name ≠ "tuple".toList)
   (p3 : "__prim__".toList.isPrefixOf (C d).name = false) :
   isType C m v (.cls d) = isTypeOf m v (typeVal C m (.cls d)) := by
  rw [isType, if_neg (show ¬ "__prim__".toList.isPrefixOf (C (PyT.cls d).pcls).name = true by
      show ¬ "__prim__".toList.isPrefixOf (C d).name = true; rw [p3]; simp),
    if_neg (show ¬ (C (PyT.cls d).pcls).name = "tuple".toList from p2),
    if_neg (show ¬ PyT.rawGeneric C (.cls d) = true by simp [PyT.rawGeneric, p1])]

theorem basicType_none {C : Nat → Cls} {m : Model} {fuel bound : Nat} {v : Str}
    {opts : List (List Str × Str)} {d : Str}
    (h1 : dictGet m "get_basic<PyType>".toList = some (.func opts d))
    (h2 : dictGet opts [v] = none) : basicType C m fuel v bound = .ok bound := by
  rw [basicType, h1]
  simp only
  rw [h2]

theorem basicType_same {C : Nat → Cls} {m : Model} {fuel bound : Nat} {v : Str}
    {opts : List (List Str × Str)} {d : Str}
    (h1 : dictGet m "get_basic<PyType>".toList = some (.func opts d))
    (h2 : dictGet opts [v] = some v) :
    basicType C m fuel v bound = basicGo C m v false bound fuel [bound] := by
  rw [basicType, h1]
  simp only
  rw [h2]
  simp

theorem basicGo_found {C : Nat → Cls} {m : Model} {fuel bound c : Nat} {b : Str} {rest : List Nat}
    {e : Entry} (p1 : (C c).tvars = []) (h : dictGet m (tkey C c) = some e) (he : showEntry e = b) :
    basicGo C m b false bound (fuel + 1) (c :: rest) = .ok c := by
  rw [basicGo, p1]
  simp [h, he]

theorem basicGo_next {C : Nat → Cls} {m : Model} {fuel bound c : Nat} {b : Str} {rest : List Nat}
    {e : Entry} (p1 : (C c).tvars = []) (h : dictGet m (tkey C c) = some e) (he : showEntry e ≠ b) :
    basicGo C m b false bound (fuel + 1) (c :: rest)
      = basicGo C m b false bound fuel (rest ++ (C c).subs) := by
  rw [basicGo, p1]
  simp [h, he]

end Nagini.Cex
