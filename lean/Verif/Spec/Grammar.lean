import Verif.Spec.Head
import Verif.Spec.Number
/-!
# Specification: exactly what the server takes for a request, whatever the bytes

The byte strings accepted as requests and what each of them means, as a grammar over bytes. It mentions neither readers nor buffers.
`closed` says whether the client has closed its side after the last byte.
-/

namespace Httpd.Spec

/-- `p` is the piece that is taken from the front of `p ++ rest`: everything up to and including the first `delim`; or the first
`limit` bytes if `delim` is not among them; or, on a closed stream, all that is left. -/
inductive Taken (delim : Byte) (limit : Nat) (closed : Bool) : Bytes → Bytes → Prop
  | upTo (q rest : Bytes) : delim ∉ q → q.length < limit → Taken delim limit closed (q ++ [delim]) rest
  | full (p rest : Bytes) : delim ∉ p → p.length = limit → Taken delim limit closed p rest
  | last (p : Bytes) : closed = true → delim ∉ p → p.length < limit → Taken delim limit closed p []

/-- `t` is `s` without the spaces at its ends. -/
def Stripped (s t : Bytes) : Prop :=
  ∃ i j, s = List.replicate i 32 ++ t ++ List.replicate j 32 ∧ t.head? ≠ some 32 ∧ t.getLast? ≠ some 32

/-- The header section: pieces that end in LF (or have the maximal length, or are the last of a closed stream), of which the last two
bytes do not matter. A piece of two bytes ends the section. A longer one is skipped if it has no colon, and otherwise is a field. -/
inductive Section (maxLine maxCount : Nat) (closed : Bool) : Bytes → List (Bytes × Bytes) → Bytes → Prop
  | stop (x y : Byte) (rest : Bytes) : Taken 10 maxLine closed [x, y] rest → Section maxLine maxCount closed ([x, y] ++ rest) [] rest
  | skip (l : Bytes) (x y : Byte) (s : Bytes) (fs : List (Bytes × Bytes)) (rest : Bytes) :
      Taken 10 maxLine closed (l ++ [x, y]) s → l ≠ [] → (∀ b ∈ l, IsText b) → 58 ∉ l → l.length ≤ 256 →
      Section maxLine maxCount closed s fs rest → Section maxLine maxCount closed (l ++ [x, y] ++ s) fs rest
  | field (n v n' v' : Bytes) (x y : Byte) (s : Bytes) (fs : List (Bytes × Bytes)) (rest : Bytes) :
      Taken 10 maxLine closed (n ++ 58 :: v ++ [x, y]) s → (∀ b ∈ n, IsText b) → 58 ∉ n → n.length ≤ 256 → (∀ b ∈ v, IsText b) →
      v ≠ [] → 1 ≤ maxCount → Stripped n n' → Stripped v v' →
      Section maxLine maxCount closed s fs rest → Section maxLine maxCount closed (n ++ 58 :: v ++ [x, y] ++ s) ((lower n', v') :: fs) rest

/-- Two bytes that are UTF-8: two ASCII characters or one character of two bytes. -/
def TwoBytes (x y : Byte) : Prop := (x < 0x80 ∧ y < 0x80) ∨ (0xC2 ≤ x ∧ x ≤ 0xDF ∧ 0x80 ≤ y ∧ y ≤ 0xBF)

instance (x y : Byte) : Decidable (TwoBytes x y) := inferInstanceAs (Decidable (_ ∨ _))

/-- A head: method, target and version, each without its last byte or last two bytes, and the header section. -/
inductive HeadText (maxUrl maxLine maxCount : Nat) (closed : Bool) :
    Bytes → Bytes → Bytes → Bytes → List (Bytes × Bytes) → Bytes → Prop
  | mk (w0 w1 w2 : Bytes) (a b x y : Byte) (s : Bytes) (fs : List (Bytes × Bytes)) (rest : Bytes) :
      Taken 32 128 closed (w0 ++ [a]) (w1 ++ [b] ++ (w2 ++ [x, y] ++ s)) → (∀ c ∈ w0, IsText c) →
      Taken 32 maxUrl closed (w1 ++ [b]) (w2 ++ [x, y] ++ s) → (∀ c ∈ w1, IsText c) →
      Taken 10 128 closed (w2 ++ [x, y]) s → w2 ≠ [] → (∀ c ∈ w2, IsText c) → TwoBytes x y →
      Section maxLine maxCount closed s fs rest →
      HeadText maxUrl maxLine maxCount closed (w0 ++ [a] ++ (w1 ++ [b] ++ (w2 ++ [x, y] ++ s))) w0 w1 w2 fs rest

/-- A header section that is not complete yet: the piece it breaks off in has neither its end nor the maximal length. -/
inductive SectionOpen (maxLine maxCount : Nat) : Bytes → Prop
  | here (s : Bytes) : 10 ∉ s → s.length < maxLine → SectionOpen maxLine maxCount s
  | skip (l : Bytes) (x y : Byte) (s : Bytes) :
      Taken 10 maxLine false (l ++ [x, y]) s → l ≠ [] → (∀ b ∈ l, IsText b) → 58 ∉ l → l.length ≤ 256 →
      SectionOpen maxLine maxCount s → SectionOpen maxLine maxCount (l ++ [x, y] ++ s)
  | field (n v : Bytes) (x y : Byte) (s : Bytes) :
      Taken 10 maxLine false (n ++ 58 :: v ++ [x, y]) s → (∀ b ∈ n, IsText b) → 58 ∉ n → n.length ≤ 256 → (∀ b ∈ v, IsText b) →
      v ≠ [] → 1 ≤ maxCount → SectionOpen maxLine maxCount s → SectionOpen maxLine maxCount (n ++ 58 :: v ++ [x, y] ++ s)

/-- A head that is not complete yet. -/
inductive HeadOpen (maxUrl maxLine maxCount : Nat) : Bytes → Prop
  | method (s : Bytes) : 32 ∉ s → s.length < 128 → HeadOpen maxUrl maxLine maxCount s
  | target (w0 : Bytes) (a : Byte) (s : Bytes) : Taken 32 128 false (w0 ++ [a]) s → (∀ c ∈ w0, IsText c) →
      32 ∉ s → s.length < maxUrl → HeadOpen maxUrl maxLine maxCount (w0 ++ [a] ++ s)
  | version (w0 w1 : Bytes) (a b : Byte) (s : Bytes) : Taken 32 128 false (w0 ++ [a]) (w1 ++ [b] ++ s) → (∀ c ∈ w0, IsText c) →
      Taken 32 maxUrl false (w1 ++ [b]) s → (∀ c ∈ w1, IsText c) → 10 ∉ s → s.length < 128 →
      HeadOpen maxUrl maxLine maxCount (w0 ++ [a] ++ (w1 ++ [b] ++ s))
  | fields (w0 w1 w2 : Bytes) (a b x y : Byte) (s : Bytes) :
      Taken 32 128 false (w0 ++ [a]) (w1 ++ [b] ++ (w2 ++ [x, y] ++ s)) → (∀ c ∈ w0, IsText c) →
      Taken 32 maxUrl false (w1 ++ [b]) (w2 ++ [x, y] ++ s) → (∀ c ∈ w1, IsText c) →
      Taken 10 128 false (w2 ++ [x, y]) s → w2 ≠ [] → (∀ c ∈ w2, IsText c) → TwoBytes x y →
      SectionOpen maxLine maxCount s →
      HeadOpen maxUrl maxLine maxCount (w0 ++ [a] ++ (w1 ++ [b] ++ (w2 ++ [x, y] ++ s)))

/-- Add a value under a name to a list of names with their values. With `reuse`, a new name takes over the entry of the empty name. -/
def put (reuse : Bool) (k v : Bytes) : List (Bytes × List Bytes) → List (Bytes × List Bytes)
  | [] => [(k, [v])]
  | (k', vs) :: l =>
    if k' = k then (k', vs ++ [v]) :: l
    else if reuse = true ∧ k' = [] then (k, vs ++ [v]) :: l
    else (k', vs) :: put reuse k v l

/-- The headers that a list of fields amounts to. The entry of the empty name is taken over only as long as there are fewer than 36
names. -/
def collect (fs : List (Bytes × Bytes)) : List (Bytes × List Bytes) :=
  fs.foldl (fun l f => put (decide (l.length < 36)) f.1 f.2 l) []

/-- The values under a name. -/
def valuesIn : List (Bytes × List Bytes) → Bytes → Option (List Bytes)
  | [], _ => none
  | (k', vs) :: l, k => if k' = k then some vs else valuesIn l k

/-- The body length that a list of fields announces: nothing if the first Content-Length value is not a number below 2^64. -/
inductive Announces (fs : List (Bytes × Bytes)) : Option Nat → Prop
  | absent : valuesIn (collect fs) b!"content-length" = none → Announces fs (some 0)
  | number (v : Bytes) (vs : List Bytes) (n : Nat) : valuesIn (collect fs) b!"content-length" = some (v :: vs) → Numeral v n →
      n < 2 ^ 64 → Announces fs (some n)
  | bad (v : Bytes) (vs : List Bytes) : valuesIn (collect fs) b!"content-length" = some (v :: vs) →
      (∀ n, Numeral v n → 2 ^ 64 ≤ n) → Announces fs none

/-- What the client does after the last byte: it closes, the connection breaks, or it sends nothing more. -/
inductive After
  | closes
  | breaks
  | silent
deriving DecidableEq

/-- How a connection ends: the service closes it, the server gives it up, it goes on waiting for the client, or it goes on reading
nothing for ever. -/
inductive Fate
  | closed
  | dropped
  | waiting
  | spinning
deriving DecidableEq

/-- A whole connection, from its `j`th request on: the bytes that come, the answers, and how it ends. `reply j v` is the answer to
request number `j` with version text `v`; `stops v` says that the service closes the connection after it. -/
inductive Talk (maxUrl maxLine maxCount : Nat) (after : After) (reply : Nat → Bytes → Bytes) (stops : Bytes → Prop) :
    Nat → Bytes → List Bytes → Fate → Prop
  | refused (j : Nat) (s : Bytes) :
      (¬ ∃ w0 w1 w2 fs rest, HeadText maxUrl maxLine maxCount (after = .closes) s w0 w1 w2 fs rest) →
      ¬ (after = .silent ∧ HeadOpen maxUrl maxLine maxCount s) → Talk maxUrl maxLine maxCount after reply stops j s [] .dropped
  | waits (j : Nat) (s : Bytes) : after = .silent → HeadOpen maxUrl maxLine maxCount s →
      Talk maxUrl maxLine maxCount after reply stops j s [] .waiting
  | badLength (j : Nat) (s w0 w1 w2 rest : Bytes) (fs : List (Bytes × Bytes)) :
      HeadText maxUrl maxLine maxCount (after = .closes) s w0 w1 w2 fs rest → Announces fs none →
      Talk maxUrl maxLine maxCount after reply stops j s [] .dropped
  | short (j : Nat) (s w0 w1 w2 rest : Bytes) (fs : List (Bytes × Bytes)) (n : Nat) :
      HeadText maxUrl maxLine maxCount (after = .closes) s w0 w1 w2 fs rest → Announces fs (some n) → rest.length < n →
      Talk maxUrl maxLine maxCount after reply stops j s []
        (match after with | .closes => .spinning | .breaks => .dropped | .silent => .waiting)
  | final (j : Nat) (s w0 w1 w2 body rest : Bytes) (fs : List (Bytes × Bytes)) :
      HeadText maxUrl maxLine maxCount (after = .closes) s w0 w1 w2 fs (body ++ rest) → Announces fs (some body.length) → stops w2 →
      Talk maxUrl maxLine maxCount after reply stops j s [reply j w2] .closed
  | next (j : Nat) (s w0 w1 w2 body rest : Bytes) (fs : List (Bytes × Bytes)) (outs : List Bytes) (f : Fate) :
      HeadText maxUrl maxLine maxCount (after = .closes) s w0 w1 w2 fs (body ++ rest) → Announces fs (some body.length) → ¬ stops w2 →
      Talk maxUrl maxLine maxCount after reply stops (j + 1) rest outs f →
      Talk maxUrl maxLine maxCount after reply stops j s (reply j w2 :: outs) f

end Httpd.Spec
