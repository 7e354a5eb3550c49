import Verif.Model.Facade
import Verif.Props.C36_ActorPath
/-! Lemmas about the model of actor systems and references: paths. -/
set_option autoImplicit false

namespace Verif.Facade

open ActorPath (Str Scope isValidSystemName isValidActorName isValidActorPath build parce join slash scopeToStr root parce_root valid_noSlash scopeToStr_noSlash strToScope_scopeToStr)

/-- a path of an actor in the scope `user` -/
def UserPath (p : Str) : Prop := ∃ nm r : Str, (∀ x ∈ nm, slash x = false) ∧ p = root ++ (nm ++ '/' :: (scopeToStr .user ++ '/' :: r))

theorem split_slash {a b x y : Str} (ha : ∀ c ∈ a, slash c = false) (hb : ∀ c ∈ b, slash c = false) (h : a ++ '/' :: x = b ++ '/' :: y) : a = b ∧ x = y := by
  induction a generalizing b with
  | nil =>
    cases b with
    | nil => exact ⟨rfl, (List.cons.inj h).2⟩
    | cons d b =>
      have := (List.cons.inj h).1
      have h2 := hb d (List.mem_cons_self ..)
      rw [← this] at h2
      exact absurd h2 (by decide)
  | cons c a ih =>
    cases b with
    | nil =>
      have := (List.cons.inj h).1
      have h2 := ha c (List.mem_cons_self ..)
      rw [this] at h2
      exact absurd h2 (by decide)
    | cons d b =>
      obtain ⟨h1, h2⟩ := List.cons.inj h
      obtain ⟨e1, e2⟩ := ih (fun c hc => ha c (List.mem_cons_of_mem _ hc)) (fun c hc => hb c (List.mem_cons_of_mem _ hc)) h2
      exact ⟨by rw [h1, e1], e2⟩

theorem build_eq {system name m : Str} {scope : Scope} (h : build system scope name = some m) :
    isValidSystemName system = true ∧ m = root ++ (system ++ '/' :: (scopeToStr scope ++ '/' :: name)) := by
  unfold build at h
  split at h
  · cases h
  · rename_i h1
    split at h
    · cases h
    · refine ⟨by simpa using h1, ?_⟩
      have := (Option.some.inj h).symm
      simpa using this

theorem actorPath_of_name {name : Str} (h : isValidActorName name = true) : isValidActorPath name = true := by
  simp only [isValidActorName, isValidActorPath, Bool.and_eq_true, List.all_eq_true] at h ⊢
  exact ⟨h.1, fun x hx => (h.2 x hx).1⟩

theorem build_user {system name : Str} (hs : isValidSystemName system = true) (hn : isValidActorName name = true) :
    build system .user name = some (root ++ system ++ ['/'] ++ scopeToStr .user ++ ['/'] ++ name) := by
  unfold build
  simp [hs, actorPath_of_name hn]

theorem userPath_build {system name m : Str} (h : build system .user name = some m) : UserPath m := by
  obtain ⟨h1, h2⟩ := build_eq h
  exact ⟨system, name, valid_noSlash h1, h2⟩

theorem UserPath.join {p : Str} (h : UserPath p) (name : Str) : UserPath (join p name) := by
  obtain ⟨nm, r, h1, h2⟩ := h
  exact ⟨nm, r ++ '/' :: name, h1, by simp [ActorPath.join, h2]⟩

theorem UserPath.scopeOf {p : Str} (h : UserPath p) : scopeOf p = some .user := by
  obtain ⟨nm, r, h1, h2⟩ := h
  unfold Facade.scopeOf
  rw [h2, parce_root, Tokens.pieces_append_sep slash nm _ '/' (by decide), Tokens.pieces_append_sep slash _ r '/' (by decide),
    Tokens.pieces_noSep h1, Tokens.pieces_noSep (scopeToStr_noSlash .user)]
  simp [strToScope_scopeToStr]

theorem UserPath.not_dead {p name q : Str} (h : UserPath p) (hd : deadPath name = some q) : p ≠ q := by
  obtain ⟨nm, r, h1, h2⟩ := h
  obtain ⟨h3, h4⟩ := build_eq hd
  intro e
  rw [h2, h4] at e
  have e := List.append_cancel_left e
  obtain ⟨-, e⟩ := split_slash h1 (valid_noSlash h3) e
  obtain ⟨e, -⟩ := split_slash (scopeToStr_noSlash .user) (scopeToStr_noSlash .dead) e
  exact absurd e (by decide +kernel)

theorem deadPath_some {name : Str} (h : isValidSystemName name = true) : ∃ q, deadPath name = some q := by
  unfold deadPath build
  simp [h]
  decide

end Verif.Facade
