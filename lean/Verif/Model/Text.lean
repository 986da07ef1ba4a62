import Verif.Model.XF

/-!
# Text

Strings as lists of characters, with the functions of Go's packages `strings`, `bufio`, `fmt` and
`strconv` that the readers and writers use. Simplified: a string is valid UTF-8.
-/

namespace CloudForest

/-- Text (a Go string or the bytes of a file) (e.g. forestreader.go:85, 163). -/
abbrev Text := List Char

/-- `strings.Split(s, string(sep))` for a one-character separator (forestreader.go:127, 166, 192). -/
def splitC (sep : Char) : Text → List Text
  | [] => [[]]
  | c :: s =>
    if c = sep then [] :: splitC sep s
    else
      match splitC sep s with
      | [] => [[c]]
      | p :: ps => (c :: p) :: ps

/-- `strings.Join(l, string(sep))` (forestwriter.go:104, forestreader.go:183). -/
def joinC (sep : Char) : List Text → Text
  | [] => []
  | [p] => p
  | p :: q :: ps => p ++ sep :: joinC sep (q :: ps)

/-- `unicode.IsSpace`, used by `strings.TrimSpace` and `strings.Fields`
(forestreader.go:166, 168, 194, libsvm.go:33). -/
def isSpaceC (c : Char) : Bool :=
  c ∈ ['\t', '\n', Char.ofNat 0x0b, Char.ofNat 0x0c, '\r', ' ', Char.ofNat 0x85, Char.ofNat 0xa0,
    Char.ofNat 0x1680, Char.ofNat 0x2028, Char.ofNat 0x2029, Char.ofNat 0x202f, Char.ofNat 0x205f,
    Char.ofNat 0x3000] || (0x2000 ≤ c.toNat && c.toNat ≤ 0x200a)

/-- Cut characters off both ends while they satisfy `p` (the loops of `strings.TrimSpace` and `strings.Trim`) (used
at forestreader.go:166-168, 194). -/
def trimC (p : Char → Bool) (s : Text) : Text :=
  ((s.dropWhile p).reverse.dropWhile p).reverse

/-- `strings.TrimSpace` (forestreader.go:166, 168, 194). -/
def trimSpace (s : Text) : Text := trimC isSpaceC s

/-- `strings.Trim(s, "\"")` (forestreader.go:194). -/
def trimQuotes (s : Text) : Text := trimC (· == '"') s

/-- `bufio.Reader.ReadString('\n')` (forestreader.go:85, libsvm.go:26): the line with its line end
and the rest, or `none` (an error, `io.EOF`) if there is no line end; the text read is then dropped
by the callers. -/
def readLine : Text → Option (Text × Text)
  | [] => none
  | c :: s => if c = '\n' then some (['\n'], s) else (readLine s).map fun x => (c :: x.1, x.2)

theorem readLine_length {s l r : Text} (h : readLine s = some (l, r)) : r.length < s.length := by
  induction s generalizing l r with
  | nil => cases h
  | cons c s ih =>
    unfold readLine at h
    split at h
    · cases h; simp
    · rw [Option.map_eq_some_iff] at h
      obtain ⟨⟨l', r'⟩, h1, h2⟩ := h
      cases h2
      have := ih h1
      simp only [List.length_cons]
      omega

/-- Numbers as text: `fmt.Sprintf("%v", x)` (forestwriter.go:45, 88) and `strconv.ParseFloat(s, 64)`
(forestreader.go:95, 106, 134, densenumfeature.go:23, 41), where `none` is an error. Left abstract:
theorems say what they need of the numbers that occur. -/
structure NumText (K : Type) where
  fmt : XF K → Text
  parse : Text → Option (XF K)

/-- `fmt.Sprintf("%v", n)` of a non-negative integer (forestwriter.go:47, libsvm.go:72, 135). -/
def fmtNat (n : Nat) : Text := Nat.toDigits 10 n

end CloudForest
