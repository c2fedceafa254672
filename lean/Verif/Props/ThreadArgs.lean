import Verif.Lemmas.ThreadArgs

/-!
C131: verified starts of threads are safe.  C132: a started thread gives one permission to its postcondition.  C133: the
arguments of the constructor are used as Python uses them.
-/
namespace Nagini.ThreadArgs

variable {E V X : Type}

/-! ### C131 -/

/-- C131, full claim. -/
def C131_claim : Prop := ∀ (E V : Type) (_ : Nonempty V) (ms : Nat → Meth V) (t : Nat) (recv : Option (E → V))
  (args : List (E → V)) (starts : List (List Nat)) (Q : E → Prop) (c : Cmd E V),
  prog ms t recv args starts Q = some c → Verified c → Safe (ms t) (recv.toList ++ args) starts Q

/-- C131, what is verified exactly: the number of arguments with wrong types is even, the target is among the listed
methods, and, *if no argument has a wrong type*, the precondition holds, the thread is not started again, and the assertion
holds. -/
theorem C131_exact [Nonempty V] {ms : Nat → Meth V} {t : Nat} {recv : Option (E → V)} {args : List (E → V)}
    {starts : List (List Nat)} {Q : E → Prop} {c : Cmd E V} (hc : prog ms t recv args starts Q = some c) :
    Verified c ↔ ∀ e, Checked (ms t) t (vals (recv.toList ++ args) e) (Q e) starts := by
  unfold prog at hc
  obtain ⟨c', hc', rfl⟩ := Option.map_eq_some_iff.1 hc
  obtain ⟨hl, rfl⟩ := create_some hc'
  change _ ↔ ∀ e, Checked (ms t) t (vals (methArgs recv args) e) (Q e) starts
  have hf : ∀ e G, Fails e G (.seq (made ms t (methArgs recv args)) (rest ms starts Q)) ⟨0, 0⟩ ↔
      G.meth = t ∧ (¬ argChecks e (methArgs recv args) (ms t).params ∨
        (argChecks e (methArgs recv args) (ms t).params ∧ argAssumptions e G 0 (methArgs recv args) ∧
          Fails e G (rest ms starts Q) ⟨1, 0⟩)) := by
    intro e G
    rw [Fails, made_fails]
    simp only [made_ends]
    constructor
    · rintro (⟨h1, h2⟩ | ⟨m, ⟨h1, h2, h3, rfl⟩, h4⟩)
      · exact ⟨h1, .inl h2⟩
      · exact ⟨h1, .inr ⟨h2, h3, h4⟩⟩
    · rintro ⟨h1, h2 | ⟨h2, h3, h4⟩⟩
      · exact .inl ⟨h1, h2⟩
      · exact .inr ⟨_, ⟨h1, h2, h3, rfl⟩, h4⟩
  constructor
  · intro hv e
    obtain ⟨G, hG, ha⟩ := ghost_exists e t (methArgs recv args)
    have h := hv e G
    rw [hf] at h
    have hp := paramVals_eq hl ha
    rw [rest_fails, hG, hp, argChecks_iff] at h
    by_cases hE : Even (wrong (ms t).params (vals (methArgs recv args) e))
    · cases starts with
      | nil =>
        refine ⟨hE, ?_⟩
        by_cases hq : Q e
        · exact hq
        · exact (h ⟨rfl, .inr ⟨hE, ha, hq⟩⟩).elim
      | cons o r =>
        refine ⟨hE, ?_, fun ht => ?_⟩
        · by_cases hm : t ∈ o
          · exact hm
          · exact (h ⟨rfl, .inr ⟨hE, ha, .inl hm⟩⟩).elim
        · by_cases hq : (ms t).pre (vals (methArgs recv args) e) ∧ r = [] ∧ Q e
          · exact hq
          · exact (h ⟨rfl, .inr ⟨hE, ha, .inr ⟨ht, hq⟩⟩⟩).elim
    · exact (h ⟨rfl, .inl hE⟩).elim
  · intro h e G hfail
    obtain ⟨hG, hfail⟩ := (hf e G).1 hfail
    replace h := h e
    have hE : Even (wrong (ms t).params (vals (methArgs recv args) e)) := by
      cases starts <;> exact h.1
    rw [argChecks_iff] at hfail
    rcases hfail with hn | ⟨_, ha, hr⟩
    · exact hn hE
    · have hp := paramVals_eq hl ha
      rw [rest_fails, hG, hp] at hr
      cases starts with
      | nil => exact hr h.2
      | cons o r =>
        rcases hr with hr | ⟨h1, h2⟩
        · exact hr h.2.1
        · exact h2 (h.2.2 h1)

/-- C131, proved if at most one argument can have a wrong type.  Missing: several arguments with wrong types, for which the
claim is false. -/
theorem C131_partial [Nonempty V] {ms : Nat → Meth V} {t : Nat} {recv : Option (E → V)} {args : List (E → V)}
    {starts : List (List Nat)} {Q : E → Prop} {c : Cmd E V} (hc : prog ms t recv args starts Q = some c)
    (hw : ∀ e, wrong (ms t).params (vals (recv.toList ++ args) e) ≤ 1) (hv : Verified c) :
    Safe (ms t) (recv.toList ++ args) starts Q := by
  have hlen : (recv.toList ++ args).length = (ms t).params.length := by
    unfold prog at hc
    obtain ⟨c', hc', _⟩ := Option.map_eq_some_iff.1 hc
    exact (create_some hc').1
  intro e
  have h := (C131_exact hc).1 hv e
  have hE : Even (wrong (ms t).params (vals (recv.toList ++ args) e)) := by
    cases starts <;> exact h.1
  have hz : wrong (ms t).params (vals (recv.toList ++ args) e) = 0 := by
    obtain ⟨k, hk⟩ := hE
    have := hw e
    omega
  have ht := (wrong_zero (by simpa [vals] using hlen)).1 hz
  refine ⟨ht, ?_⟩
  cases starts with
  | nil => exact ⟨by simp, by simp, h.2⟩
  | cons o r =>
    obtain ⟨h1, rfl, h2⟩ := h.2.2 ht
    exact ⟨by simp, fun _ => h1, h2⟩

/-- In particular for targets with at most one parameter. -/
theorem C131_one [Nonempty V] {ms : Nat → Meth V} {t : Nat} {recv : Option (E → V)} {args : List (E → V)}
    {starts : List (List Nat)} {Q : E → Prop} {c : Cmd E V} (hc : prog ms t recv args starts Q = some c)
    (h1 : (ms t).params.length ≤ 1) (hv : Verified c) : Safe (ms t) (recv.toList ++ args) starts Q :=
  C131_partial hc (fun _ => Nat.le_trans wrong_le h1) hv

/-- Correct programs are verified. -/
theorem C131_complete [Nonempty V] {ms : Nat → Meth V} {t : Nat} {recv : Option (E → V)} {args : List (E → V)}
    {starts : List (List Nat)} {Q : E → Prop} {c : Cmd E V} (hc : prog ms t recv args starts Q = some c)
    (hs : Safe (ms t) (recv.toList ++ args) starts Q) (ho : ∀ o ∈ starts, t ∈ o) : Verified c := by
  have hlen : (recv.toList ++ args).length = (ms t).params.length := by
    unfold prog at hc
    obtain ⟨c', hc', _⟩ := Option.map_eq_some_iff.1 hc
    exact (create_some hc').1
  rw [C131_exact hc]
  intro e
  obtain ⟨h1, h2, h3, h4⟩ := hs e
  have hE : Even (wrong (ms t).params (vals (recv.toList ++ args) e)) := by
    rw [(wrong_zero (by simpa [vals] using hlen)).2 h1]
    simp
  cases starts with
  | nil => exact ⟨hE, h4⟩
  | cons o r =>
    refine ⟨hE, ho o (by simp), fun _ => ⟨h3 (by simp), ?_, h4⟩⟩
    cases r with
    | nil => rfl
    | cons _ _ => simp at h2

/-- The method of the examples has number 0, two parameters that must be positive, and the precondition that the first is
smaller than the second; method 1 has one parameter. -/
def exMeths : Nat → Meth Int
  | 0 => ⟨[fun v => 0 < v, fun v => 0 < v], fun vs => vs.headD 0 < vs.getD 1 0, fun _ => True⟩
  | _ => ⟨[fun v => 0 < v], fun vs => 5 < vs.headD 0, fun _ => True⟩

/-- `t = Thread(None, f, None, (x, y)); t.start(f); assert False`, where neither `x` nor `y` has the right type, is
verified. -/
theorem C131_types_fails : ¬ C131_claim := by
  intro h
  have hp : ∃ c, prog exMeths 0 none [fun (_ : Unit) => -1, fun _ => -2] [[0]] (fun _ => False) = some c := ⟨_, rfl⟩
  obtain ⟨c, hc⟩ := hp
  have hs := h Unit Int ⟨0⟩ exMeths 0 none [fun _ => -1, fun _ => -2] [[0]] (fun _ => False) c hc
    ((C131_exact hc).2 fun e => ⟨⟨1, by simp [wrong, exMeths, vals]⟩, by simp, fun ht => by
      simp [TypesOk, exMeths, vals] at ht⟩)
  exact (hs ()).2.2.2

/-- A program with one wrong argument is not verified, whatever is asserted afterwards. -/
example : ¬ ∃ c, prog exMeths 0 none [fun (_ : Unit) => -1, fun _ => 2] [[0]] (fun _ => True) = some c ∧ Verified c := by
  rintro ⟨c, hc, hv⟩
  have h := ((C131_exact hc).1 hv ()).1
  simp [wrong, exMeths, vals] at h

/-- A correct program with a receiver, for every value of `e`. -/
example : ∃ c, prog exMeths 0 (some fun e : Nat => (e : Int) + 1) [fun e => (e : Int) + 2] [[1, 0]]
    (fun e => e < e + 1) = some c ∧ Verified c ∧
    ∀ e : Nat, wrong (exMeths 0).params (vals [fun e : Nat => (e : Int) + 1, fun e => (e : Int) + 2] e) ≤ 1 := by
  have hp : ∃ c, prog exMeths 0 (some fun e : Nat => (e : Int) + 1) [fun e => (e : Int) + 2] [[1, 0]]
    (fun e => e < e + 1) = some c := ⟨_, rfl⟩
  obtain ⟨c, hc⟩ := hp
  have h1 : ∀ e : Nat, (0 : Int) < (e : Int) + 1 := by omega
  have h2 : ∀ e : Nat, (0 : Int) < (e : Int) + 2 := by omega
  refine ⟨c, hc, C131_complete hc (fun e => ⟨?_, by simp, ?_, by simp⟩) (by simp), fun e => ?_⟩
  · simp [TypesOk, exMeths, vals, h1, h2]
  · simp [exMeths, vals]
  · simp [wrong, exMeths, vals, h1, h2]

/-- Starting it twice is not verified. -/
example : ¬ ∃ c, prog exMeths 1 none [fun (_ : Unit) => 7] [[1], [1]] (fun _ => True) = some c ∧ Verified c := by
  rintro ⟨c, hc, hv⟩
  have h := (C131_one hc (by simp [exMeths]) hv ()).2.1
  simp at h

/-! ### C132 -/

/-- C132, full claim: after a thread was started, at most one full permission to its postcondition is held. -/
def C132_claim : Prop := ∀ (E V : Type) (ms : Nat → Meth V) (t : Nat) (recv : Option (E → V))
  (args : List (E → V)) (opts : List Nat) (Q : E → Prop) (c : Cmd E V),
  prog ms t recv args [opts] Q = some c → ∀ e G s, Ends e G c ⟨0, 0⟩ s → s.post ≤ 1

/-- C132, exactly: the permission is the number of times the target is listed, if the target promises to terminate. -/
theorem C132_exact {ms : Nat → Meth V} {t : Nat} {recv : Option (E → V)} {args : List (E → V)}
    {opts : List Nat} {Q : E → Prop} {c : Cmd E V} (hc : prog ms t recv args [opts] Q = some c) {e : E} {G : Ghost V}
    {s : St} (h : Ends e G c ⟨0, 0⟩ s) :
    s.start = 0 ∧ ((ms t).term (vals (recv.toList ++ args) e) → s.post = opts.count t) ∧
      (¬ (ms t).term (vals (recv.toList ++ args) e) → s.post = 0) := by
  unfold prog at hc
  obtain ⟨c', hc', rfl⟩ := Option.map_eq_some_iff.1 hc
  obtain ⟨hl, rfl⟩ := create_some hc'
  obtain ⟨m, h1, x, h2, _, rfl⟩ := h
  obtain ⟨hG, _, ha, rfl⟩ := (made_ends _ _ _ _ _ _).1 h1
  obtain ⟨y, h3, rfl⟩ := h2
  obtain ⟨_, _, _, _, rfl⟩ := (start_ends _ _ _ _ _ _).1 h3
  have hp := paramVals_eq hl ha
  rw [hG] at *
  unfold gain
  rw [hp]
  refine ⟨rfl, fun ht => ?_, fun ht => ?_⟩
  · have ht : (ms t).term (vals (methArgs recv args) e) := ht
    simp [ht]
  · have ht : ¬ (ms t).term (vals (methArgs recv args) e) := ht
    simp [ht]

/-- C132, proved if no method is listed twice. -/
theorem C132_partial {ms : Nat → Meth V} {t : Nat} {recv : Option (E → V)} {args : List (E → V)}
    {opts : List Nat} {Q : E → Prop} {c : Cmd E V} (hc : prog ms t recv args [opts] Q = some c) {e : E} {G : Ghost V}
    {s : St} (hn : opts.Nodup) (h : Ends e G c ⟨0, 0⟩ s) : s.post ≤ 1 := by
  obtain ⟨_, h1, h2⟩ := C132_exact hc h
  by_cases ht : (ms t).term (vals (recv.toList ++ args) e)
  · rw [h1 ht]
    exact List.nodup_iff_count.1 hn t
  · rw [h2 ht]
    exact Nat.zero_le 1

/-- A run of the program that creates and starts a thread for method 1. -/
theorem exRun (opts : List Nat) (h : 1 ∈ opts) :
    ∃ c, prog exMeths 1 none [fun (_ : Unit) => 7] [opts] (fun _ => True) = some c ∧ Verified c ∧
      Ends () ⟨1, fun _ => 7⟩ c ⟨0, 0⟩ ⟨0, opts.count 1⟩ := by
  have hp : ∃ c, prog exMeths 1 none [fun (_ : Unit) => 7] [opts] (fun _ => True) = some c := ⟨_, rfl⟩
  obtain ⟨c, hc⟩ := hp
  have hc' := hc
  obtain rfl := Option.some.inj hc'
  refine ⟨_, hc, C131_complete hc (fun e => ⟨by simp [TypesOk, exMeths, vals], by simp, by simp [exMeths, vals],
    trivial⟩) (by simpa using h), ⟨1, 0⟩, ?_, ⟨0, opts.count 1⟩, ⟨⟨0, opts.count 1⟩, ?_, rfl⟩, trivial, rfl⟩
  · exact (made_ends exMeths 1 _ () ⟨1, fun _ => 7⟩ _).2
      ⟨rfl, by simp [argChecks, exMeths, methArgs], by simp [argAssumptions, methArgs], rfl⟩
  · exact (start_ends exMeths () ⟨1, fun _ => 7⟩ opts _ _).2 ⟨Nat.le_refl 1, h, by simp [TypesOk, exMeths, paramVals],
      by simp [exMeths, paramVals], by simp [gain, exMeths]⟩

/-- `t.start(f, f)` gives two permissions; the join then adds every permission of the postcondition twice. -/
theorem C132_duplicate_fails : ¬ C132_claim := by
  intro h
  obtain ⟨c, hc, _, hr⟩ := exRun [1, 1] (by simp)
  have := h _ _ _ _ _ _ _ _ c hc _ _ _ hr
  simp at this

example : ∃ c s, prog exMeths 1 none [fun (_ : Unit) => 7] [[0, 1]] (fun _ => True) = some c ∧ Verified c ∧
    [0, 1].Nodup ∧ Ends () ⟨1, fun _ => 7⟩ c ⟨0, 0⟩ s ∧ s.post = 1 := by
  obtain ⟨c, h1, h2, h3⟩ := exRun [0, 1] (by simp)
  exact ⟨c, _, h1, h2, by simp, h3, by simp⟩

/-! ### C133 -/

/-- C133, full claim: an accepted call of the constructor uses the target and the arguments that Python uses, and gives no
parameter that is ignored. -/
def C133_claim : Prop := ∀ (X : Type) (pos : List X) (kws : List (Kw × X)) (r : CArgs X), handle pos kws = .ok r →
  binds pos kws .target = some r.target ∧ binds pos kws .args = some r.args ∧ binds pos kws .group = r.group ∧
  binds pos kws .kwargs = none ∧ binds pos kws .daemon = none

/-- C133, exactly: `kwargs` and `daemon` are ignored if they are the first argument of the call.  Missing: that they are
rejected there, too, which is false. -/
theorem C133_partial {pos : List X} {kws : List (Kw × X)} {r : CArgs X} :
    handle pos kws = .ok r ↔
      binds pos kws .target = some r.target ∧ binds pos kws .args = some r.args ∧ binds pos kws .group = r.group ∧
      (∀ k, k = Kw.kwargs ∨ k = Kw.daemon → binds pos kws k = none ∨ (pos = [] ∧ kws.head?.map (·.1) = some k)) := by
  have hk := truthy_iff pos kws .kwargs (by decide)
  have hd := truthy_iff pos kws .daemon (by decide)
  have et := getArg_expr pos kws .target
  have ea := getArg_expr pos kws .args
  have eg := getArg_expr pos kws .group
  simp only [Kw.pos] at hk hd et ea eg
  have hkd : (∀ k, k = Kw.kwargs ∨ k = Kw.daemon → binds pos kws k = none ∨ (pos = [] ∧ kws.head?.map (·.1) = some k)) ↔
      truthy (getArg pos.length (kws.map (·.1)) 4 .kwargs) = false ∧
        truthy (getArg pos.length (kws.map (·.1)) 5 .daemon) = false := by
    rw [hk, hd]
    constructor
    · intro h
      exact ⟨h _ (.inl rfl), h _ (.inr rfl)⟩
    · rintro ⟨h1, h2⟩ k (rfl | rfl)
      · exact h1
      · exact h2
  rw [hkd, ← et, ← ea, ← eg]
  unfold handle
  simp only
  generalize pos ++ kws.map (·.2) = xs
  generalize getArg pos.length (kws.map (·.1)) 1 .target = gt
  generalize getArg pos.length (kws.map (·.1)) 3 .args = ga
  generalize getArg pos.length (kws.map (·.1)) 0 .group = gg
  generalize truthy (getArg pos.length (kws.map (·.1)) 4 .kwargs) = tk
  generalize truthy (getArg pos.length (kws.map (·.1)) 5 .daemon) = td
  obtain ⟨rg, rt, ra⟩ := r
  cases gt with
  | none => simp
  | some t =>
    cases ga with
    | none => cases tk <;> cases td <;> simp
    | some a =>
      simp only [Option.bind_some]
      cases h1 : xs[t]? <;> cases h2 : xs[a]? <;> cases tk <;> cases td <;>
        simp [and_assoc, and_comm]

/-- `Thread(kwargs=..., target=f, args=...)` is accepted; the keyword arguments are ignored. -/
theorem C133_kwargs_fails : ¬ C133_claim := by
  intro h
  have := (h Nat [] [(.kwargs, 0), (.target, 1), (.args, 2)] ⟨none, 1, 2⟩ rfl).2.2.2.1
  cases this

/-- `Thread(None, f, args=...)`, and `Thread(None, f, args=..., daemon=...)`. -/
example : handle [10, 11] [(.args, 12)] = .ok ⟨some 10, 11, 12⟩ ∧
    handle [10, 11] [(.args, 12), (.daemon, 13)] = .error .unsupported := ⟨rfl, rfl⟩

end Nagini.ThreadArgs
