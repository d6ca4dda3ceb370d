import Verif.Spec.ConfigFile
/-!
# The services of a configuration file and of the files it includes
-/

namespace Httpd.Spec

/-- What a file found by a pattern adds to the services: nothing unless it is a visible regular file; then, if it can be read and is a
service, that service, named by its trimmed name or else by the name of the file without its extension. -/
inductive FileAdds (U : Unicode) (p : Profile) (strict : Bool) : GlobFile → List (Str × ServiceConfig) → Prop
  | err : FileAdds U p strict .err []
  | notFile (path readable toml) : FileAdds U p strict (.ok path false readable toml) []
  | noName (path isFile readable toml) : (∀ c, LastComponent path c → c = [46, 46]) → FileAdds U p strict (.ok path isFile readable toml) []
  | hidden (path isFile readable toml name) : LastComponent path name → name.head? = some 46 →
      FileAdds U p strict (.ok path isFile readable toml) []
  | named (path name v s) : LastComponent path name → name.head? ≠ some 46 → ServiceSays U p strict v s → trimUnicode s.name ≠ [] →
      FileAdds U p strict (.ok path true true (some v)) [(trimUnicode s.name, { s with name := trimUnicode s.name })]
  | unnamed (path name stem v s) : LastComponent path name → name.head? ≠ some 46 → ServiceSays U p strict v s → trimUnicode s.name = [] →
      IsStem name stem → FileAdds U p strict (.ok path true true (some v)) [(stem, { s with name := stem })]

/-- The patterns of a file: `include` if it is not empty, then those of `includes`. -/
def patternsOf (incl : Str) (includes : List Str) : List Str := if incl = [] then includes else incl :: includes

/-- The pattern is one of those of the file `v`. -/
def HasPattern (v : Toml) (pat : Str) : Prop :=
  (setting [u!"include", u!"Include"] 7 v = some (.str pat) ∧ pat ≠ []) ∨
  ∃ vs, setting [u!"includes", u!"Includes"] 8 v = some (.arr vs) ∧ Toml.str pat ∈ vs

/-- The file `v` has, itself or in a file it includes, a service `sv` with the name `k`. -/
inductive Offers (glob : Str → Option (List GlobFile)) (v : Toml) : Str → Toml → Prop
  | listed (ss : List (Str × Toml)) (k : Str) (sv : Toml) : setting [u!"services", u!"Services"] 9 v = some (.table ss) → (k, sv) ∈ ss →
      Offers glob v k sv
  | named (pat gs path name n sv) : HasPattern v pat → glob pat = some gs → GlobFile.ok path true true (some sv) ∈ gs →
      LastComponent path name → name.head? ≠ some 46 → setting [u!"name", u!"Name"] 0 sv = some (.str n) → trimUnicode n ≠ [] →
      Offers glob v (trimUnicode n) sv
  | unnamed (pat gs path name n k sv) : HasPattern v pat → glob pat = some gs → GlobFile.ok path true true (some sv) ∈ gs →
      LastComponent path name → name.head? ≠ some 46 → Given IsString [] (setting [u!"name", u!"Name"] 0 sv) n → trimUnicode n = [] →
      IsStem name k → Offers glob v k sv

end Httpd.Spec
