import Verif.Proofs.Registers

/-!
# C76: registered loaders
-/

namespace Eno.El

theorem findSome_home {F} {R : Registry F} {s : Str} {X : Attr F} {home : PyClass} :
    ∀ {cs : List PyClass}, (∀ c ∈ cs, R.own c s = if c = home then some X else none) →
      cs.findSome? (fun c => R.own c s) = if home ∈ cs then some X else none
  | [], _ => rfl
  | c :: cs, h => by
    rw [List.findSome?_cons, h c List.mem_cons_self]
    by_cases hc : c = home
    · simp [hc]
    · have hc' : home ≠ c := fun e => hc e.symm
      simp only [if_neg hc, List.mem_cons, hc', false_or]
      exact findSome_home fun c' h' => h c' (List.mem_cons_of_mem _ h')

theorem own_nil {F} (c : PyClass) (s : Str) : Registry.own ([] : Registry F) c s = if s ∈ c.body then some (.native c s) else none := rfl

theorem mro_missing {w : Option Want} : ∀ c ∈ (PyClass.missing w).mro, (∀ a : Accessor, c ≠ a.home) ∧ c ≠ .of (.of .field) := by
  intro c hc
  have : c = .missing w ∨ c = .missingValueElementBase ∨ c = .missingElementBase := by
    rcases w with _ | (_ | (_ | _ | _ | _ | _)) <;> simp [PyClass.mro] at hc <;> (try rcases hc with h | h | h) <;> (try rcases hc with h | h) <;> simp [*]
  refine ⟨fun a => ?_, ?_⟩
  · rcases this with rfl | rfl | rfl <;> rcases a with _ | r | r | r <;> simp [Accessor.home]
  · rcases this with rfl | rfl | rfl <;> simp

theorem mro_of {k : Cls} : ∀ c ∈ (PyClass.of k).mro, ∀ a : Accessor, c ≠ a.missingHome := by
  intro c hc a
  have : (∃ k, c = .of k) ∨ c = .valueElementBase ∨ c = .elementBase := by
    rcases k with (_ | _ | _ | _ | _) | _ | _ | _ | _ <;> simp [PyClass.mro] at hc <;> (try rcases hc with h | h | h) <;> (try rcases hc with h | h) <;> simp [*]
  rcases this with ⟨k, rfl⟩ | rfl | rfl <;> rcases a with _ | r | r | r <;> simp [Accessor.missingHome]

theorem getattr_registered {F} {h : List (Registration F)} {n : Str} {f : F} (hf : latest h n = some f) (hn : n ≠ chars!"string") (a : Accessor) (k : Cls) :
    (afterwards h).getattr (.of k) (a.called n) = if a.home ∈ (PyClass.of k).mro then some (.calling a f) else none := by
  rw [afterwards_eq]
  obtain ⟨_, h2, h3⟩ := registers_spec (registrations h)
  refine findSome_home fun c hc => ?_
  by_cases hh : c = a.home
  · rw [if_pos hh, hh]; exact (h2 a n f hf).1
  · rw [if_neg hh, h3 c _ ?_, own_nil, if_neg ?_]
    · intro hb
      rcases body_called hb with ⟨h, _⟩ | ⟨_, rfl, rfl⟩
      · exact hn h
      · exact hh rfl
    · intro b m e _
      obtain ⟨rfl, rfl⟩ := called_inj.mp e
      exact ⟨hh, mro_of c hc a⟩

theorem getattr_missing {F} (h : List (Registration F)) {n : Str} (hn : n = chars!"string" ∨ latest h n ≠ none) (a : Accessor) (w : Option Want) :
    (afterwards h).getattr (.missing w) (a.called n)
      = if a.missingHome ∈ (PyClass.missing w).mro then some (.native a.missingHome (a.called (chars!"string"))) else none := by
  rw [afterwards_eq]
  obtain ⟨h1, h2, h3⟩ := registers_spec (registrations h)
  refine findSome_home fun c hc => ?_
  by_cases hh : c = a.missingHome
  · rw [if_pos hh, hh]
    rcases hn with rfl | hn
    · exact h1 a
    · obtain ⟨f, hf⟩ := Option.ne_none_iff_exists'.mp hn
      exact (h2 a n f hf).2
  · rw [if_neg hh, h3 c _ ?_, own_nil, if_neg ?_]
    · intro hb
      rcases body_called hb with ⟨_, h | h | h⟩ | ⟨_, rfl, rfl⟩
      · exact (mro_missing c hc).1 a h
      · exact hh h
      · exact (mro_missing c hc).2 h
      · exact (mro_missing _ hc).1 .key rfl
    · intro b m e _
      obtain ⟨rfl, rfl⟩ := called_inj.mp e
      exact ⟨(mro_missing c hc).1 a, hh⟩

theorem run_absent (E : Env) {a : Accessor} {o : Nat} {w : World} (loader : Loader) (h : a.home ∉ (PyClass.of (w.at o).cls).mro) :
    run E o (a.method loader) w = noMethod w := by
  cases hc : (w.at o).cls with
  | of k => cases k <;> rcases a with _ | r | r | r <;> simp [hc, PyClass.mro, Accessor.home] at h <;> simp [run, bind, obj, hc, Accessor.method]
  | _ => rcases a with _ | r | r | r <;> simp [hc, PyClass.mro, Accessor.home] at h <;> simp [run, bind, obj, hc, Accessor.method]

theorem runMissing_absent (E : Env) {a : Accessor} {x : Missing} (loader : Loader) (h : a.missingHome ∉ x.pyClass.mro) :
    runMissing E x (a.method loader) = noMethod := by
  unfold Missing.pyClass at h
  cases hw : x.want with
  | none => rcases a with _ | r | r | r <;> simp [hw, PyClass.mro, Accessor.missingHome] at h <;> simp [runMissing, hw, Accessor.method]
  | some k =>
    rcases k with _ | (_ | _ | _ | _ | _) <;> rcases a with _ | r | r | r <;> simp [hw, PyClass.mro, Accessor.missingHome] at h <;>
      simp [runMissing, hw, Accessor.method]

theorem runMissing_loader (E : Env) (a : Accessor) (x : Missing) (l l' : Loader) : runMissing E x (a.method l) = runMissing E x (a.method l') := by
  unfold runMissing Accessor.method
  cases a <;> rcases x.want with _ | (_ | (_ | _ | _ | _ | _)) <;> rfl

theorem method_string {F} (load : F → Loader) (a : Accessor) (c : PyClass) :
    (Attr.native c (a.called (chars!"string")) : Attr F).method load = some (a.method asText) := by
  rcases a with _ | r | r | r <;> (try cases r) <;> rfl

/-- **C76**, partial: loaders that are not called `string`. After any calls of `register`, `optional_n_value()` on any object is `optional_value(f)` for the function `f` that was last registered as `n`, and likewise
for the other methods. Nothing may be registered under the empty name, because `run` stands for methods that use the `_key` of the library (`C76_safe_refuted`). -/
theorem C76_registered_partial {F} (E : Env) (load : F → Loader) {h : List (Registration F)} {n : Str} {f : F} (hf : latest h n = some f) (hn : n ≠ chars!"string")
    (_h0 : latest h [] = none)
    (a : Accessor) (o : Nat) (w : World) :
    invoke E load (afterwards h) o (a.called n) w = run E o (a.method (load f)) w := by
  show (match ((afterwards h).getattr (.of (w.at o).cls) (a.called n)).bind (Attr.method load) with
    | some m => run E o m
    | none => noMethod) w = _
  rw [getattr_registered hf hn]
  by_cases hc : a.home ∈ (PyClass.of (w.at o).cls).mro
  · rw [if_pos hc]; rfl
  · rw [if_neg hc, run_absent E _ hc]; rfl

/-- **C76**, partial: the methods by name. -/
theorem C76_by_name_partial {F} (E : Env) (load : F → Loader) {h : List (Registration F)} {n : Str} {f : F} (hf : latest h n = some f) (hn : n ≠ chars!"string")
    (h0 : latest h [] = none) (o : Nat) (w : World) :
    invoke E load (afterwards h) o (n ++ chars!"_key") w = run E o (.key (load f)) w ∧
    invoke E load (afterwards h) o (chars!"optional_" ++ n ++ chars!"_comment") w = run E o (.comment false (load f)) w ∧
    invoke E load (afterwards h) o (chars!"required_" ++ n ++ chars!"_comment") w = run E o (.comment true (load f)) w ∧
    invoke E load (afterwards h) o (chars!"optional_" ++ n ++ chars!"_value") w = run E o (.value false (load f)) w ∧
    invoke E load (afterwards h) o (chars!"required_" ++ n ++ chars!"_value") w = run E o (.value true (load f)) w ∧
    invoke E load (afterwards h) o (chars!"optional_" ++ n ++ chars!"_values") w = run E o (.values false (load f)) w ∧
    invoke E load (afterwards h) o (chars!"required_" ++ n ++ chars!"_values") w = run E o (.values true (load f)) w :=
  have all := fun a => C76_registered_partial E load hf hn h0 a o w
  ⟨all .key, all (.comment false), all (.comment true), all (.value false), all (.value true), all (.values false), all (.values true)⟩

/-- **C76**: on missing objects the methods for any registered name do what they do with any loader: they never call it. -/
theorem C76_missing {F} (E : Env) (load : F → Loader) (h : List (Registration F)) {n : Str} (hn : n = chars!"string" ∨ latest h n ≠ none)
    (a : Accessor) (x : Missing) (loader : Loader) :
    invokeMissing E load (afterwards h) x (a.called n) = runMissing E x (a.method loader) := by
  unfold invokeMissing
  unfold Missing.pyClass
  rw [getattr_missing h hn]
  by_cases hc : a.missingHome ∈ (PyClass.missing x.want).mro
  · rw [if_pos hc, Option.bind_some, method_string]; exact runMissing_loader E a x _ _
  · rw [if_neg hc, runMissing_absent E _ hc]; rfl

/-- **C76**: the names of the methods are different for different methods and for different loaders. -/
theorem C76_names {a b : Accessor} {m n : Str} (h : a.called m = b.called n) : a = b ∧ m = n := called_inj.mp h

/-- **C76**: registering changes no attribute but those of the registered names. -/
theorem C76_others {F} (h : List (Registration F)) (s : Str) (hs : ∀ (a : Accessor) (n : Str), latest h n ≠ none → s ≠ a.called n) (c : PyClass) :
    (afterwards h).getattr c s = (afterwards ([] : List (Registration F))).getattr c s := by
  rw [afterwards_eq]
  unfold Registry.getattr
  congr 1
  funext c'
  exact (registers_spec (registrations h)).2.2 c' s fun a n e hn => absurd e (hs a n hn)

/-- **C76**, partial: as long as nothing is registered as `string` or under the empty name, registering changes none of the methods that the classes came with. -/
theorem C76_native_partial {F} (h : List (Registration F)) (h1 : latest h (chars!"string") = none) (h2 : latest h [] = none) {c : PyClass} {s : Str}
    (hs : s ∈ c.body) (d : PyClass) :
    (afterwards h).getattr d s = (afterwards ([] : List (Registration F))).getattr d s := by
  refine C76_others h s (fun a n hn e => ?_) d
  subst e
  rcases body_called hs with ⟨rfl, _⟩ | ⟨rfl, _⟩
  · exact hn h1
  · exact hn h2

/-- The methods for strings. -/
theorem string_natively {F} (E : Env) (load : F → Loader) {h : List (Registration F)} (h1 : latest h (chars!"string") = none) (_h0 : latest h [] = none) (a : Accessor) (o : Nat) (w : World) :
    invoke E load (afterwards h) o (a.called (chars!"string")) w = run E o (a.method asText) w := by
  show (match ((afterwards h).getattr (.of (w.at o).cls) (a.called (chars!"string"))).bind (Attr.method load) with
    | some m => run E o m
    | none => noMethod) w = _
  rw [C76_others h _ (fun b n hn e => hn ((called_inj.mp e).2 ▸ h1))]
  have hg : ((afterwards ([] : List (Registration F))).getattr (.of (w.at o).cls) (a.called (chars!"string"))).bind (Attr.method load)
      = if a.home ∈ (PyClass.of (w.at o).cls).mro then some (a.method asText) else none := by
    generalize (w.at o).cls = c
    rcases c with (_ | _ | _ | _ | _) | _ | _ | _ | _ <;> rcases a with _ | r | r | r <;> (try cases r) <;> rfl
  rw [hg]
  by_cases hc : a.home ∈ (PyClass.of (w.at o).cls).mro
  · rw [if_pos hc]
  · rw [if_neg hc, run_absent E _ hc]

/-- **C76**, partial: then `optional_string_value()` is `optional_value` with the loader that returns the text as it is and does nothing else, and so on. -/
theorem C76_string_partial {F} (E : Env) (load : F → Loader) {h : List (Registration F)} (h1 : latest h (chars!"string") = none) (h0 : latest h [] = none) (a : Accessor) (o : Nat) (w : World) :
    invoke E load (afterwards h) o (a.called (chars!"string")) w = run E o (a.method fun s w => (.ok (.text s), w)) w :=
  string_natively E load h1 h0 a o w

/-- Registering, registering again, a dictionary, a named argument and a name used by the library. -/
def registeredB : List (Registration Nat) :=
  [{ positional := [.function (chars!"number") 1, .dict [(chars!"colour", 2), (chars!"number", 3)]] }, { named := [(chars!"date", 4)] }]

example : latest registeredB (chars!"number") = some 3 ∧ latest registeredB (chars!"date") = some 4 ∧ latest registeredB (chars!"string") = none ∧
    latest registeredB [] = none ∧ Accessor.called (chars!"number") (.value false) = chars!"optional_number_value" ∧
    (afterwards registeredB).getattr (.of .item) (chars!"optional_number_value") = some (.calling (.value false) 3) ∧
    (afterwards registeredB).getattr (.of (.of .section)) (chars!"optional_number_value") = none ∧
    (afterwards registeredB).getattr (.missing none) (chars!"required_date_value") = some (.native .missingValueElementBase (chars!"required_string_value")) := by
  decide +kernel

/-- **C76**, what is false: a loader registered as `string` replaces the methods for strings, for items but not for fields, and one registered under the empty name
replaces `_key`, which the library uses itself. -/
theorem C76_safe_refuted :
    (afterwards [{ named := [(chars!"string", 1)] }]).getattr (.of .item) (chars!"optional_string_value") = some (.calling (.value false) 1) ∧
    (afterwards [{ named := [(chars!"string", 1)] }]).getattr (.of (.of .field)) (chars!"optional_string_value")
      = some (.native (.of (.of .field)) (chars!"optional_string_value")) ∧
    (afterwards [{ positional := [.dict [([], 1)]] }]).getattr (.of (.of .field)) (chars!"_key") = some (.calling .key 1) := by
  decide +kernel

end Eno.El
