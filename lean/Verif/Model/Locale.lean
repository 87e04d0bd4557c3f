import Verif.Model.Str

/-!
# Model of `include/pluto/locale.hpp` and of the objects that refer to locales

`std::locale` objects share facets; a facet lives as long as some locale object refers to it, and the reference that
`std::use_facet` returns must not be used afterwards ([locale.global.templates]).  The comparators of
`include/pluto/compare.hpp` (48-129) store such a reference.

Simplified: what a facet does is given by a `Str.Ctype`, with one type `α` for characters of every kind; the functions
of `string.hpp` and the comparators are those of the models `Str` and `Seq`, which take the `Ctype`, so here it is only
said with which one they compute.  One thread.
-/

namespace Pluto.Locale

/-- The character types.  The parameter of `locale.hpp` 65. -/
inductive Elem where
  | char
  | wchar
  | char8
  | char16
  | char32
deriving DecidableEq, Repr

/-- Using an object that does not exist any more.  See `locale.hpp` 26-69 and `compare.hpp` 48-129. -/
inductive Err where
  | undefined
deriving DecidableEq, Repr

/-- Outcome of a call of something in `locale.hpp` 26-69. -/
abbrev Res (β : Type) := Except Err β

/-- How the library is compiled, and the environment.  The macros of `locale.hpp` 16-22. -/
structure Config (α : Type) where
  /-- `PLUTO_LOCALE_NO_STATIC`, `locale.hpp` 16-18 -/
  noStatic : Bool
  /-- the facets for `char` and `wchar_t` of the locale named `PLUTO_LOCALE_DEFAULT_LOCALE`, `locale.hpp` 20-22; `none`
  if there is no locale with this name, in which case the constructor of `std::locale` throws -/
  named : Option (Str.Ctype α × Str.Ctype α)

/-- Locale objects, facets and comparators.  Objects are numbered in the order of their creation.
What `locale.hpp` 26-69 and `compare.hpp` 48-129 refer to. -/
structure State (α : Type) where
  /-- the facets of each locale object; `none` after its destruction -/
  locales : List (Option (Elem → Option Nat)) := []
  /-- what each facet does -/
  facets : List (Str.Ctype α) := []
  /-- the local static variable of `default_locale`, `locale.hpp` 60, once it is initialised -/
  dflt : Option Nat := none
  /-- the facet each comparator refers to -/
  comparators : List Nat := []

variable {α : Type}

/-- Some locale object refers to the facet.  Needed for `locale.hpp` 68. -/
def State.alive (s : State α) (f : Nat) : Bool :=
  s.locales.any fun l => match l with
    | none => false
    | some fs => [Elem.char, .wchar, .char8, .char16, .char32].any fun e => fs e == some f

/-- The facets of a locale with a name, [locale.category]: only those for `char` and `wchar_t` are there.
For the locales of `locale.hpp` 29-60. -/
def standard (c w : Nat) : Elem → Option Nat
  | .char => some c
  | .wchar => some w
  | _ => none

/-- `std::locale{ name }`: new facets.  The result is the number of the locale.  `locale.hpp` 29, 34, 42, 47, 55, 60. -/
def construct (s : State α) (c w : Str.Ctype α) : State α × Nat :=
  ({ s with
      locales := s.locales ++ [some (standard s.facets.length (s.facets.length + 1))],
      facets := s.facets ++ [c, w] }, s.locales.length)

/-- The facets of a locale with one replaced or added.  See `locale.hpp` 26-69 and `compare.hpp` 48-129. -/
def withFacet (fs : Elem → Option Nat) (e : Elem) (f : Nat) (x : Elem) : Option Nat := if x = e then some f else fs x

/-- `default_locale()`, `locale.hpp` 51-62; the result is the number of the locale and whether it is a temporary
object. -/
def defaultLocale (cfg : Config α) (s : State α) : State α × Option (Nat × Bool) :=
  match cfg.named with
  | none => (s, none)
  | some (c, w) =>
    if cfg.noStatic then
      let r := construct s c w
      (r.1, some (r.2, true))
    else match s.dflt with
      | some i => (s, some (i, false))
      | none =>
        let r := construct s c w
        ({ r.1 with dflt := some r.2 }, some (r.2, false))

/-- The argument for a parameter `const std::locale& locale = pluto::default_locale()`.
As in `string.hpp` 29-66 and `compare.hpp` 52. -/
def argument (cfg : Config α) (s : State α) : Option Nat → State α × Option (Nat × Bool)
  | some l => (s, some (l, false))
  | none => defaultLocale cfg s

/-- `use_facet`, `locale.hpp` 64-68; `none` if it throws `std::bad_cast`. -/
def useFacet (s : State α) (l : Nat) (e : Elem) : Res (Option Nat) :=
  match s.locales[l]? with
  | some (some fs) => .ok (fs e)
  | _ => .error .undefined

/-- The destructor of a locale.  See `locale.hpp` 26-69 and `compare.hpp` 48-129. -/
def destroy (s : State α) (l : Nat) : State α := { s with locales := s.locales.set l none }

/-- A temporary argument is destroyed at the end of the full expression.  As in `compare.hpp` 52-53. -/
def release (s : State α) (arg : Nat × Bool) : State α := if arg.2 then destroy s arg.1 else s

/-- A member function of a facet is called through a reference.  `compare.hpp` 48-129, `string.hpp` 32-66. -/
def through (s : State α) (f : Nat) : Res (Str.Ctype α) :=
  if s.alive f then
    match s.facets[f]? with
    | some ct => .ok ct
    | none => .error .undefined
  else .error .undefined

/-- What a program can do.  See `locale.hpp` 26-69 and `compare.hpp` 48-129. -/
inductive Op (α : Type) where
  /-- `std::locale{ name }`, with what its facets do -/
  | construct (c w : Str.Ctype α)
  /-- the copy constructor of `std::locale` -/
  | copy (l : Nat)
  /-- `std::locale{ other, facet }`, with a facet for characters of the given type -/
  | install (l : Nat) (e : Elem) (ct : Str.Ctype α)
  /-- assignment of a locale -/
  | assign (l m : Nat)
  /-- the end of the life of a locale -/
  | destroy (l : Nat)
  /-- the constructor of `is_iequal<Elem>` and the other comparators, `compare.hpp` 52, 66, 80, 94, 108, 122; without an
  argument for `none` -/
  | comparator (e : Elem) (l : Option Nat)
  /-- copying a comparator -/
  | copyComparator (c : Nat)
  /-- a comparator is called, `compare.hpp` 55, 69, 83, 97, 111, 125 -/
  | compare (c : Nat)
  /-- a function of `string.hpp` with a parameter `locale` is called (`lower`, `upper`, `is_lower`, `is_upper`,
  `iequals`, `istarts_with`, `iends_with`, `ifind`, `irfind`, `icontains`, `split`, `lstrip`, `rstrip`, `strip`);
  without an argument for `none` -/
  | call (e : Elem) (l : Option Nat)

/-- What is observed.  See `locale.hpp` 26-69 and `compare.hpp` 48-129. -/
inductive Ret (α : Type) where
  /-- nothing, or a new object with this number -/
  | object (n : Nat)
  /-- the result is computed with this facet -/
  | used (ct : Str.Ctype α)
  /-- an exception -/
  | threw

/-- The facets of a locale that exists.  See `locale.hpp` 26-69 and `compare.hpp` 48-129. -/
def facetsOf (s : State α) (l : Nat) : Res (Elem → Option Nat) :=
  match s.locales[l]? with
  | some (some fs) => .ok fs
  | _ => .error .undefined

/-- One operation.  The static locale is destroyed after everything else.
See `locale.hpp` 26-69 and `compare.hpp` 48-129. -/
def step (cfg : Config α) (s : State α) : Op α → Res (State α × Ret α)
  | .construct c w => .ok ((construct s c w).1, .object (construct s c w).2)
  | .copy l => do
    let fs ← facetsOf s l
    pure ({ s with locales := s.locales ++ [some fs] }, .object s.locales.length)
  | .install l e ct => do
    let fs ← facetsOf s l
    pure ({ s with
      locales := s.locales ++ [some (withFacet fs e s.facets.length)],
      facets := s.facets ++ [ct] }, .object s.locales.length)
  | .assign l m => do
    let _ ← facetsOf s l
    let fs ← facetsOf s m
    if s.dflt = some l then .error .undefined
    else pure ({ s with locales := s.locales.set l (some fs) }, .object l)
  | .destroy l => do
    let _ ← facetsOf s l
    if s.dflt = some l then .error .undefined else pure (destroy s l, .object l)
  | .comparator e l =>
    match argument cfg s l with
    | (s, none) => .ok (s, .threw)
    | (s, some arg) => do
      match ← useFacet s arg.1 e with
      | none => pure (release s arg, .threw)
      | some f => pure (release { s with comparators := s.comparators ++ [f] } arg, .object s.comparators.length)
  | .copyComparator c =>
    match s.comparators[c]? with
    | some f => .ok ({ s with comparators := s.comparators ++ [f] }, .object s.comparators.length)
    | none => .error .undefined
  | .compare c =>
    match s.comparators[c]? with
    | some f => do
      let ct ← through s f
      pure (s, .used ct)
    | none => .error .undefined
  | .call e l =>
    match argument cfg s l with
    | (s, none) => .ok (s, .threw)
    | (s, some arg) => do
      match ← useFacet s arg.1 e with
      | none => pure (release s arg, .threw)
      | some f => do
        let ct ← through s f
        pure (release s arg, .used ct)

/-- A sequence of operations.  See `locale.hpp` 26-69 and `compare.hpp` 48-129. -/
def run (cfg : Config α) (s : State α) : List (Op α) → Res (State α × List (Ret α))
  | [] => .ok (s, [])
  | op :: ops => do
    let r ← step cfg s op
    let t ← run cfg r.1 ops
    pure (t.1, r.2 :: t.2)

end Pluto.Locale
