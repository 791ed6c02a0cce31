import Verif.Spec.Registered

/-!
# Lemmas about `register`
-/

namespace Eno.El

theorem prefixes_ne {a b : Str} : chars!"required_" ++ a ≠ chars!"optional_" ++ b := by
  intro h; simp at h

theorem called_inj {a b : Accessor} {m n : Str} : a.called m = b.called n ↔ a = b ∧ m = n := by
  constructor
  · intro h
    have hr := congrArg List.reverse h
    rcases a with _ | r | r | r <;> rcases b with _ | q | q | q <;> simp [Accessor.called] at hr <;>
      first
      | (subst hr; exact ⟨rfl, rfl⟩)
      | (have h' := congrArg List.reverse hr
         cases r <;> cases q <;> simp at h' <;> simp [h'])
  · rintro ⟨rfl, rfl⟩; rfl

theorem own_setattr {F} (R : Registry F) (c c' : PyClass) (s s' : Str) (v : Attr F) :
    (R.setattr c s v).own c' s' = if c' = c ∧ s' = s then some v else R.own c' s' := by
  unfold Registry.own Registry.setattr
  by_cases h : c' = c ∧ s' = s
  · obtain ⟨rfl, rfl⟩ := h; simp [List.lookup]
  · have hb : ((c', s') == (c, s)) = false := by
      simp only [beq_eq_false_iff_ne, ne_eq, Prod.mk.injEq]; exact h
    simp [List.lookup, hb, h]

/-- Where the methods for elements go. -/
def Accessor.home : Accessor → PyClass
  | .key | .comment _ => .elementBase
  | .value _ => .valueElementBase
  | .values _ => .of (.of .list)

/-- Where the methods for missing elements go. -/
def Accessor.missingHome : Accessor → PyClass
  | .key | .comment _ => .missingElementBase
  | .value _ => .missingValueElementBase
  | .values _ => .missing (some (.kind .list))

/-- The methods of missing elements for strings are what they were. -/
def StringsKept {F} (R : Registry F) : Prop :=
  ∀ a : Accessor, R.own a.missingHome (a.called (chars!"string")) = some (.native a.missingHome (a.called (chars!"string")))

theorem stringsKept_nil {F} : StringsKept ([] : Registry F) := by
  intro a
  rcases a with _ | r | r | r <;> (try cases r) <;> first | rfl | (refine if_pos ?_; decide)

theorem mem_mro (a : Accessor) : ∃ cs, a.missingHome.mro = a.missingHome :: cs := by
  rcases a with _ | r | r | r <;> exact ⟨_, rfl⟩

theorem getattr_kept {F} {R : Registry F} (hR : StringsKept R) (a : Accessor) :
    R.getattr a.missingHome (a.called (chars!"string")) = some (.native a.missingHome (a.called (chars!"string"))) := by
  obtain ⟨cs, hcs⟩ := mem_mro a
  unfold Registry.getattr
  rw [hcs, List.findSome?_cons, hR a]

theorem alias_kept {F} {R : Registry F} (hR : StringsKept R) (a : Accessor) (n : Str) :
    R.alias a.missingHome (a.called n) (a.called (chars!"string"))
      = R.setattr a.missingHome (a.called n) (.native a.missingHome (a.called (chars!"string"))) := by
  unfold Registry.alias
  rw [getattr_kept hR a]

theorem setattr_kept {F} {R : Registry F} (hR : StringsKept R) {c : PyClass} {s : Str} {v : Attr F}
    (h : ∀ a : Accessor, c = a.missingHome → s = a.called (chars!"string") → v = .native c s) : StringsKept (R.setattr c s v) := by
  intro a
  rw [own_setattr]
  split
  · next h' => rw [h a h'.1.symm h'.2.symm, h'.1, h'.2]
  · exact hR a

/-- The accessors in the order of `_register`. -/
def accessors : List Accessor := [.key, .comment false, .comment true, .value false, .value true, .values false, .values true]

theorem mem_accessors (a : Accessor) : a ∈ accessors := by
  rcases a with _ | r | r | r <;> (try cases r) <;> simp [accessors]

attribute [local irreducible] Registry.alias Registry.setattr in
theorem registerOne_eq {F} (R : Registry F) (n : Str) (f : F) :
    registerOne R (n, f) = accessors.foldl (fun R a => R.alias a.missingHome (a.called n) (a.called (chars!"string")))
      (accessors.foldl (fun R a => R.setattr a.home (a.called n) (.calling a f)) R) := rfl

theorem home_ne (a b : Accessor) : a.home ≠ b.missingHome := by
  rcases a with _ | r | r | r <;> rcases b with _ | q | q | q <;> simp [Accessor.home, Accessor.missingHome]

theorem setattrs_spec {F} (n : Str) (f : F) : ∀ (as : List Accessor) (R : Registry F), StringsKept R →
    StringsKept (as.foldl (fun R a => R.setattr a.home (a.called n) (.calling a f)) R) ∧
    (∀ a ∈ as, (as.foldl (fun R a => R.setattr a.home (a.called n) (.calling a f)) R).own a.home (a.called n) = some (.calling a f)) ∧
    ∀ c s, (∀ a ∈ as, ¬ (c = a.home ∧ s = a.called n)) →
      (as.foldl (fun R a => R.setattr a.home (a.called n) (.calling a f)) R).own c s = R.own c s := by
  intro as
  induction as with
  | nil => intro R hR; exact ⟨hR, fun _ h => absurd h List.not_mem_nil, fun _ _ _ => rfl⟩
  | cons b bs ih =>
    intro R hR
    have hk : StringsKept (R.setattr b.home (b.called n) (.calling b f)) := setattr_kept hR fun a h _ => absurd h (home_ne b a)
    obtain ⟨h1, h2, h3⟩ := ih _ hk
    refine ⟨h1, ?_, ?_⟩
    · intro a ha
      by_cases hab : a ∈ bs
      · exact h2 a hab
      · obtain rfl : a = b := by simpa [hab] using ha
        rw [List.foldl_cons, h3 _ _ (fun c hc h => hab (by rw [(called_inj.mp h.2).1]; exact hc)), own_setattr, if_pos ⟨rfl, rfl⟩]
    · intro c s hcs
      rw [List.foldl_cons, h3 _ _ (fun a ha => hcs a (List.mem_cons_of_mem _ ha)), own_setattr, if_neg (hcs b List.mem_cons_self)]

theorem aliases_spec {F} (n : Str) : ∀ (as : List Accessor) (R : Registry F), StringsKept R →
    StringsKept (as.foldl (fun R a => R.alias a.missingHome (a.called n) (a.called (chars!"string"))) R) ∧
    (∀ a ∈ as, (as.foldl (fun R a => R.alias a.missingHome (a.called n) (a.called (chars!"string"))) R).own a.missingHome (a.called n)
      = some (.native a.missingHome (a.called (chars!"string")))) ∧
    ∀ c s, (∀ a ∈ as, ¬ (c = a.missingHome ∧ s = a.called n)) →
      (as.foldl (fun R a => R.alias a.missingHome (a.called n) (a.called (chars!"string"))) R).own c s = R.own c s := by
  intro as
  induction as with
  | nil => intro R hR; exact ⟨hR, fun _ h => absurd h List.not_mem_nil, fun _ _ _ => rfl⟩
  | cons b bs ih =>
    intro R hR
    have hk : StringsKept (R.setattr b.missingHome (b.called n) (.native b.missingHome (b.called (chars!"string")))) := by
      refine setattr_kept hR fun a _ h => ?_
      obtain ⟨rfl, rfl⟩ := called_inj.mp h
      rfl
    obtain ⟨h1, h2, h3⟩ := ih _ hk
    rw [List.foldl_cons, alias_kept hR b n]
    refine ⟨h1, ?_, ?_⟩
    · intro a ha
      by_cases hab : a ∈ bs
      · exact h2 a hab
      · obtain rfl : a = b := by simpa [hab] using ha
        rw [h3 _ _ (fun c hc h => hab (by rw [(called_inj.mp h.2).1]; exact hc)), own_setattr, if_pos ⟨rfl, rfl⟩]
    · intro c s hcs
      rw [h3 _ _ (fun a ha => hcs a (List.mem_cons_of_mem _ ha)), own_setattr, if_neg (hcs b List.mem_cons_self)]

/-- What one registration does. -/
theorem registerOne_spec {F} {R : Registry F} (hR : StringsKept R) (n : Str) (f : F) :
    StringsKept (registerOne R (n, f)) ∧
    (∀ a : Accessor, (registerOne R (n, f)).own a.home (a.called n) = some (.calling a f)) ∧
    (∀ a : Accessor, (registerOne R (n, f)).own a.missingHome (a.called n) = some (.native a.missingHome (a.called (chars!"string")))) ∧
    ∀ c s, (∀ a : Accessor, s = a.called n → c ≠ a.home ∧ c ≠ a.missingHome) → (registerOne R (n, f)).own c s = R.own c s := by
  obtain ⟨h1, h2, h3⟩ := setattrs_spec n f accessors R hR
  obtain ⟨k1, k2, k3⟩ := aliases_spec n accessors _ h1
  rw [registerOne_eq]
  refine ⟨k1, ?_, fun a => k2 a (mem_accessors a), ?_⟩
  · intro a
    rw [k3 _ _ (fun b _ h => home_ne a b h.1), h2 a (mem_accessors a)]
  · intro c s h
    rw [k3 _ _ (fun a _ h' => (h a h'.2).2 h'.1), h3 _ _ (fun a _ h' => (h a h'.2).1 h'.1)]

/-! ## All registrations -/

theorem afterwards_eq {F} (h : List (Registration F)) : afterwards h = (registrations h).foldl registerOne [] := by
  unfold afterwards registrations
  generalize ([] : Registry F) = R
  induction h generalizing R with
  | nil => rfl
  | cons r rs ih =>
    rw [List.foldl_cons, ih, List.flatMap_cons, List.foldl_append]
    congr 1
    unfold register
    rw [List.foldl_append]
    congr 1
    generalize r.positional = ds
    induction ds generalizing R with
    | nil => rfl
    | cons d ds ih' =>
      rw [List.foldl_cons, ih', List.flatMap_cons, List.foldl_append]
      cases d <;> rfl

/-- The function that comes last under a name. -/
def lastOf {F} (ps : List (Str × F)) (n : Str) : Option F := (ps.filter fun d => d.1 = n).getLast?.map (·.2)

theorem lastOf_append {F} (ps : List (Str × F)) (m : Str) (f : F) (n : Str) :
    lastOf (ps ++ [(m, f)]) n = if m = n then some f else lastOf ps n := by
  unfold lastOf
  by_cases h : m = n <;> simp [List.filter_append, h]

theorem registers_spec {F} (ps : List (Str × F)) :
    StringsKept (ps.foldl registerOne ([] : Registry F)) ∧
    (∀ (a : Accessor) (n : Str) (f : F), lastOf ps n = some f →
      (ps.foldl registerOne []).own a.home (a.called n) = some (.calling a f) ∧
      (ps.foldl registerOne []).own a.missingHome (a.called n) = some (.native a.missingHome (a.called (chars!"string")))) ∧
    ∀ c s, (∀ (a : Accessor) (n : Str), s = a.called n → lastOf ps n ≠ none → c ≠ a.home ∧ c ≠ a.missingHome) →
      (ps.foldl registerOne []).own c s = Registry.own ([] : Registry F) c s := by
  obtain ⟨qs, rfl⟩ : ∃ qs : List (Str × F), ps = qs.reverse := ⟨_, (List.reverse_reverse _).symm⟩
  induction qs with
  | nil => exact ⟨stringsKept_nil, fun _ _ _ h => by simp [lastOf] at h, fun _ _ _ => rfl⟩
  | cons d qs ih =>
    rw [List.reverse_cons]
    generalize qs.reverse = ps at ih ⊢
    obtain ⟨m, g⟩ := d
    obtain ⟨h1, h2, h3⟩ := ih
    obtain ⟨k1, k2, k3, k4⟩ := registerOne_spec h1 m g
    rw [List.foldl_append]
    refine ⟨k1, ?_, ?_⟩
    · intro a n f hf
      rw [lastOf_append] at hf
      by_cases hmn : m = n
      · subst hmn
        simp only [if_true, Option.some.injEq] at hf
        subst hf
        exact ⟨k2 a, k3 a⟩
      · rw [if_neg hmn] at hf
        have hne : ∀ c, ∀ b : Accessor, a.called n = b.called m → c ≠ b.home ∧ c ≠ b.missingHome := fun _ b h => absurd (called_inj.mp h).2.symm hmn
        exact ⟨(k4 _ _ (hne _)).trans (h2 a n f hf).1, (k4 _ _ (hne _)).trans (h2 a n f hf).2⟩
    · intro c s h
      have : ∀ a : Accessor, s = a.called m → c ≠ a.home ∧ c ≠ a.missingHome := fun a ha => h a m ha (by rw [lastOf_append]; simp)
      refine (k4 c s this).trans (h3 c s fun a n hs hn => h a n hs ?_)
      rw [lastOf_append]
      split
      · simp
      · exact hn

/-! ## Names in the bodies of the classes -/

/-- The name under which a loader would have to be registered for the method to have this name. -/
def Accessor.middle (s : Str) (a : Accessor) : Option Str :=
  let (p, q) := match a with
    | .key => (0, 4)
    | .comment _ => (9, 8)
    | .value _ => (9, 6)
    | .values _ => (9, 7)
  let n := (s.drop p).take (s.length - p - q)
  if a.called n = s then some n else none

theorem middle_called (a : Accessor) (n : Str) : a.middle (a.called n) = some n := by
  rcases a with _ | r | r | r <;> (try cases r) <;> simp [Accessor.middle, Accessor.called]

theorem body_called {c : PyClass} {a : Accessor} {n : Str} (h : a.called n ∈ c.body) :
    (n = chars!"string" ∧ (c = a.home ∨ c = a.missingHome ∨ c = .of (.of .field))) ∨ (n = [] ∧ a = .key ∧ c = .elementBase) := by
  have hs : ∀ s ∈ c.body, ∀ a ∈ accessors, ∀ n ∈ a.middle s,
      (n = chars!"string" ∧ (c = a.home ∨ c = a.missingHome ∨ c = .of (.of .field))) ∨ (n = [] ∧ a = .key ∧ c = .elementBase) := by
    clear h
    rcases c with _ | _ | ((_ | _ | _ | _ | _) | _ | _ | _ | _) | _ | _ | (_ | (_ | (_ | _ | _ | _ | _))) <;> decide +kernel
  exact hs _ h a (mem_accessors a) n (by rw [middle_called]; rfl)

end Eno.El
