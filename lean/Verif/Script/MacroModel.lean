import Verif.Strings.StringModel

/-! # Model of the replacements in the texts of events (script/event.cpp:29-32, 36-43 and 63-65)

`std::regex_replace(text, std::regex(name, icase), replacement)` for names of letters, digits and underscores, which stand for themselves in a regular expression, and for replacements
without `$`, which would refer to parts of the match.  Letters are compared by `tolower` in the "C" locale. -/

namespace Dal.Script.Macro
open Dal.Strings

/-- The expression matches at the beginning of a text. -/
def matches? : Str → Str → Bool
  | [], _ => true
  | _ :: _, [] => false
  | n :: ns, c :: t => decide (n.toLower = c.toLower) && matches? ns t

/-- `regex_replace`, from left to right: `skip` letters of a match are left over.  A match is replaced and the search goes on behind it. -/
def go (name new : Str) : Nat → Str → Str
  | _, [] => []
  | skip + 1, _ :: t => go name new skip t
  | 0, c :: t => if matches? name (c :: t) then new ++ go name new (name.length - 1) t else c :: go name new 0 t

/-- `regex_replace`; the empty expression matches before every letter and at the end. -/
def subst (name new text : Str) : Str :=
  if name = [] then new ++ text.flatMap fun c => c :: new else go name new 0 text

end Dal.Script.Macro
