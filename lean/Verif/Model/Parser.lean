import Verif.Model.GoLib
/-
Model of /repo/parser.go. The parser state `xmlParser{data,pos,dataLen}` is represented by the
remaining suffix of the data (the Go code never looks backwards); every function returns the
suffix it leaves. `p.depth` is 0 at every call of parseElementContent (it is only changed inside that
non-recursive function), so the nesting check at parser.go:253-258 never fires and is left out.
-/
namespace Verif

/-- parser.go:14 -/
def maxNestingDepth : Nat := 100
/-- parser.go:19 -/
def maxDocumentSize : Nat := 10 * 1024 * 1024
/-- parser.go:24 -/
def maxValueSize : Nat := 5 * 1024 * 1024
/-- parser.go:28 -/
def maxAttributes : Nat := 100
/-- parser.go:32 -/
def maxTokenSize : Nat := 1024 * 1024
/-- parser.go:36 -/
def maxNamespacePrefixLength : Nat := 256

/-- A Go `map[string]string` of attributes, as an association list without duplicate keys.
The order of the list carries no meaning in Go; see `Ord`. -/
abbrev Attrs := List (Bytes × Bytes)

/-- `attrs[k] = v` (Go map assignment). -/
def Attrs.set (k v : Bytes) : Attrs → Attrs
  | [] => [(k, v)]
  | (k', v') :: r => if k' = k then (k, v) :: r else (k', v') :: Attrs.set k v r

/-- `attrs[k]` (Go map lookup). -/
def Attrs.get? (k : Bytes) : Attrs → Option Bytes
  | [] => none
  | (k', v) :: r => if k' = k then some v else Attrs.get? k r

/-- The iteration order of Go maps: at each place (identified by the remaining input), any
reordering of the entries. Theorems quantify over all `Ord`s that permute (`Ord.Perm`). -/
abbrev Ord := Bytes → Attrs → Attrs

/-- Go's guarantee about `range` over a map: every entry is visited exactly once. -/
def Ord.IsPerm (o : Ord) : Prop := ∀ r as, (o r as).Perm as

/-- parser.go:95-97 isWhitespace -/
def isWs (c : UInt8) : Bool := c = c!" " || c = 9 || c = 10 || c = 13

/-- parser.go:87-91 skipWhitespace. (parser.go:76-83 newXMLParser starts with the whole data; parser.go:110-117 next takes the first byte of the suffix.) -/
def skipWs : Bytes → Bytes
  | [] => []
  | c :: cs => if isWs c then skipWs cs else c :: cs

/-- Common loop of parser.go:123-138 (readUntil) and 144-163 (readUntilAny): `stop` is the
delimiter test, `k` the number of bytes read so far. `none` stands for the "token too large" exit,
which returns "" at the current position. -/
def readAux (stop : UInt8 → Bool) (k : Nat) : Bytes → Option Bytes × Bytes
  | [] => (some [], [])
  | c :: cs =>
    if k > maxTokenSize then (none, c :: cs)
    else if stop c then (some [], c :: cs)
    else
      let (t, r) := readAux stop (k + 1) cs
      (t.map (c :: ·), r)

/-- parser.go:123-163: token read (empty if too large) and the remaining suffix. -/
def readUntilP (stop : UInt8 → Bool) (r : Bytes) : Bytes × Bytes :=
  let (t, r') := readAux stop 0 r
  (t.getD [], r')

/-- parser.go:123 readUntil(delim) -/
def readUntil (d : UInt8) (r : Bytes) : Bytes × Bytes := readUntilP (· == d) r

/-- The delimiter set " \t\n\r/>" of parser.go:216,229,302. -/
def isNameDelim (c : UInt8) : Bool := isWs c || c = c!"/" || c = c!">"

/-- The delimiter set "= \t\n\r/>" of parser.go:191. -/
def isAttrDelim (c : UInt8) : Bool := c = c!"=" || isNameDelim c

theorem readAux_length (stop : UInt8 → Bool) (k : Nat) (r : Bytes) :
    (readAux stop k r).2.length ≤ r.length := by
  induction r generalizing k with
  | nil => simp [readAux]
  | cons c cs ih =>
    simp only [readAux]
    split
    · simp
    · split
      · simp
      · have := ih (k + 1)
        simp only [List.length_cons]; omega

theorem readUntilP_length (stop : UInt8 → Bool) (r : Bytes) :
    (readUntilP stop r).2.length ≤ r.length := readAux_length stop 0 r

theorem readUntil_length (d : UInt8) (r : Bytes) :
    (readUntil d r).2.length ≤ r.length := readAux_length _ 0 r

theorem readUntil_cons_length (d c : UInt8) (r : Bytes) (h : c ≠ d) :
    (readUntil d (c :: r)).2.length ≤ r.length := by
  simp [readUntil, readUntilP, readAux, h]
  exact readAux_length _ _ r

theorem skipWs_length (r : Bytes) : (skipWs r).length ≤ r.length := by
  induction r with
  | nil => simp [skipWs]
  | cons c cs ih => simp only [skipWs]; split <;> simp <;> omega

/-- parser.go:476-482, 496 escapeXML: `strings.NewReplacer` with one-byte keys replaces bytewise. -/
def escByte (c : UInt8) : Bytes :=
  if c = c!"&" then b!"&amp;"
  else if c = c!"<" then b!"&lt;"
  else if c = c!">" then b!"&gt;"
  else if c = c!"\"" then b!"&quot;"
  else if c = c!"'" then b!"&apos;"
  else [c]

/-- parser.go:496-498 escapeXML -/
def escapeXML : Bytes → Bytes
  | [] => []
  | c :: cs => escByte c ++ escapeXML cs

/-- parser.go:486-492, 502 unescapeXML: `strings.NewReplacer` scans left to right, at each position
replacing a key that is a prefix (no key is a prefix of another), without overlaps. -/
def unescapeXML (s : Bytes) : Bytes :=
  match s with
  | [] => []
  | c :: cs =>
    if c = c!"&" then
      if b!"lt;".isPrefixOf cs then c!"<" :: unescapeXML (cs.drop 3)
      else if b!"gt;".isPrefixOf cs then c!">" :: unescapeXML (cs.drop 3)
      else if b!"quot;".isPrefixOf cs then c!"\"" :: unescapeXML (cs.drop 5)
      else if b!"apos;".isPrefixOf cs then c!"'" :: unescapeXML (cs.drop 5)
      else if b!"amp;".isPrefixOf cs then c!"&" :: unescapeXML (cs.drop 4)
      else c :: unescapeXML cs
    else c :: unescapeXML cs
termination_by s.length
decreasing_by all_goals simp only [List.length_drop, List.length_cons]; omega

/-- parser.go:168-222 parseAttributes: `n` is the number of attributes still allowed
(`MaxAttributes - attrCount`), `acc` the map so far. -/
def parseAttrsN : Nat → Attrs → Bytes → Attrs × Bytes
  | 0, acc, r => (acc, skipWs r)
  | n + 1, acc, r =>
    match skipWs r with
    | [] => (acc, [])
    | c :: cs =>
      if c = c!">" || c = c!"/" then (acc, c :: cs)
      else
        let (name, r1) := readUntilP isAttrDelim (c :: cs)
        if name.isEmpty then (acc, r1)
        else
          match skipWs r1 with
          | [] => (acc, [])
          | e :: r2 =>
            if e ≠ c!"=" then (acc, e :: r2)
            else
              match skipWs r2 with
              | [] => parseAttrsN n (acc.set name []) []
              | q :: r3 =>
                if q = c!"\"" || q = c!"'" then
                  let (v, r4) := readUntil q r3
                  parseAttrsN n (acc.set name (unescapeXML v)) (r4.drop 1)
                else
                  let (v, r4) := readUntilP isNameDelim (q :: r3)
                  parseAttrsN n (acc.set name (unescapeXML v)) r4

/-- parser.go:168 parseAttributes -/
def parseAttributes (r : Bytes) : Attrs × Bytes := parseAttrsN maxAttributes [] r

theorem parseAttrsN_length (n : Nat) (acc : Attrs) (r : Bytes) :
    (parseAttrsN n acc r).2.length ≤ r.length := by
  induction n generalizing acc r with
  | zero => simpa [parseAttrsN] using skipWs_length r
  | succ n ih =>
    have h0 := skipWs_length r
    rw [parseAttrsN]
    split
    · simp
    · rename_i c cs heq
      rw [heq] at h0
      split
      · exact h0
      · have h1 := readUntilP_length isAttrDelim (c :: cs)
        simp only
        split
        · simp only; omega
        · have h2 := skipWs_length (readUntilP isAttrDelim (c :: cs)).2
          split
          · simp
          · rename_i e r2 heq2
            rw [heq2] at h2
            simp only [List.length_cons] at h0 h1 h2
            split
            · simp only [List.length_cons]; omega
            · have h3 := skipWs_length r2
              split
              · have := ih (acc.set (readUntilP isAttrDelim (c :: cs)).1 []) []
                simp only [List.length_nil] at this; omega
              · rename_i q r3 heq3
                rw [heq3] at h3
                simp only [List.length_cons] at h3
                split
                · have h4 := readUntil_length q r3
                  refine Nat.le_trans (ih _ _) ?_
                  simp only [List.length_drop]; omega
                · have h4 := readUntilP_length isNameDelim (q :: r3)
                  refine Nat.le_trans (ih _ _) ?_
                  simp only [List.length_cons] at h4; omega

/-- An opening tag as read by parser.go:227-247 (parseElementName) and 301-328 (the same steps
inside parseElementContent): name, attributes, whether `/` was seen, whether `>` was consumed. -/
structure TagInfo where
  name : Bytes
  attrs : Attrs
  selfClosing : Bool
  gt : Bool
deriving DecidableEq, Repr

/-- parser.go:235-244: optional `/`, then optional `>`. -/
def tagTail (r : Bytes) : Bool × Bool × Bytes :=
  let (sc, r1) : Bool × Bytes :=
    match r with
    | c :: cs => if c = c!"/" then (true, cs) else (false, c :: cs)
    | [] => (false, [])
  match r1 with
  | c :: cs => if c = c!">" then (sc, true, cs) else (sc, false, c :: cs)
  | [] => (sc, false, [])

/-- parser.go:227-247 parseElementName; the argument is the suffix after `<`. -/
def parseTag (r : Bytes) : TagInfo × Bytes :=
  let (name, r1) := readUntilP isNameDelim r
  let (attrs, r2) := parseAttributes r1
  let (sc, gt, r3) := tagTail r2
  (⟨name, attrs, sc, gt⟩, r3)

theorem tagTail_length (r : Bytes) : (tagTail r).2.2.length ≤ r.length := by
  unfold tagTail
  cases r with
  | nil => simp
  | cons c cs =>
    by_cases h : c = c!"/"
    · simp only [h, if_true]
      cases cs with
      | nil => simp
      | cons d ds => simp only; split <;> simp only [List.length_cons] <;> omega
    · simp only [h, if_false]; split <;> simp

theorem parseTag_length (r : Bytes) : (parseTag r).2.length ≤ r.length := by
  have h1 := readUntilP_length isNameDelim r
  have h2 := parseAttrsN_length maxAttributes [] (readUntilP isNameDelim r).2
  have h3 := tagTail_length (parseAttributes (readUntilP isNameDelim r).2).2
  show (tagTail (parseAttributes (readUntilP isNameDelim r).2).2).2.2.length ≤ r.length
  simp only [parseAttributes] at *
  omega

/-- parser.go:310-316: attributes written back as ` k="escaped v"` in iteration order. -/
def writeAttrs : Attrs → Bytes
  | [] => []
  | (k, v) :: r => b!" " ++ k ++ b!"=\"" ++ escapeXML v ++ b!"\"" ++ writeAttrs r

/-- parser.go:305-328: the opening tag written back into the content. -/
def writeTag (t : TagInfo) (ordered : Attrs) : Bytes :=
  b!"<" ++ t.name ++ writeAttrs ordered ++ (if t.selfClosing then b!"/" else []) ++
    (if t.gt then b!">" else [])

/-- parser.go:281-284: name of a closing tag (trimmed, cut at the first white space). -/
def closeName (tok : Bytes) : Bytes := (trimSpace tok).takeWhile (fun c => !isWs c)

/-- Bytes written before the rest of the content. -/
def prepend (w : Bytes) (p : Bytes × Bytes) : Bytes × Bytes := (w ++ p.1, p.2)

/-- parser.go:331-333: `elementDepth` after an opening tag. -/
def depthAfter (name : Bytes) (depth : Nat) (t : TagInfo) : Nat :=
  if !t.selfClosing && t.name = name then depth + 1 else depth

/-- parser.go:265-343: main loop of parseElementContent. `depth` is `elementDepth` (at least 1).
Returns the content written from here on and the suffix after the closing tag. -/
def contentLoop (o : Ord) (name : Bytes) (depth : Nat) (r : Bytes) : Bytes × Bytes :=
  match r with
  | [] => ([], [])
  | c :: cs =>
    if c = c!"<" then
      match cs with
      | [] => ([c], [])
      | d :: ds =>
        if d = c!"/" then
          if closeName (readUntil c!">" ds).1 = name then
            if depth ≤ 1 then ([], (readUntil c!">" ds).2.drop 1)
            else
              prepend (b!"</" ++ closeName (readUntil c!">" ds).1 ++ b!">")
                (contentLoop o name (depth - 1) ((readUntil c!">" ds).2.drop 1))
          else
            prepend (b!"</" ++ closeName (readUntil c!">" ds).1 ++ b!">")
              (contentLoop o name depth ((readUntil c!">" ds).2.drop 1))
        else if d = c!"!" then
          prepend [c] (contentLoop o name depth (d :: ds))
        else
          prepend (writeTag (parseTag (d :: ds)).1 (o (parseTag (d :: ds)).2 (parseTag (d :: ds)).1.attrs))
            (contentLoop o name (depthAfter name depth (parseTag (d :: ds)).1) (parseTag (d :: ds)).2)
    else prepend [c] (contentLoop o name depth cs)
termination_by r.length
decreasing_by
  · have := readUntil_length c!">" ds; simp only [List.length_drop, List.length_cons]; omega
  · have := readUntil_length c!">" ds; simp only [List.length_drop, List.length_cons]; omega
  · simp
  · have := parseTag_length (d :: ds); simp only [List.length_cons] at *; omega
  · simp

/-- parser.go:251-346 parseElementContent -/
def parseElementContent (o : Ord) (name : Bytes) (r : Bytes) : Bytes × Bytes :=
  contentLoop o name 1 r

theorem contentLoop_length (o : Ord) (name : Bytes) (depth : Nat) (r : Bytes) :
    (contentLoop o name depth r).2.length ≤ r.length := by
  fun_induction contentLoop o name depth r with
  | case1 => simp
  | case2 => simp
  | case3 _ ds =>
    have := readUntil_length c!">" ds
    simp only [List.length_drop, List.length_cons]; omega
  | case4 _ ds =>
    have := readUntil_length c!">" ds
    simp only [prepend, List.length_drop, List.length_cons] at *; omega
  | case5 _ ds =>
    have := readUntil_length c!">" ds
    simp only [prepend, List.length_drop, List.length_cons] at *; omega
  | case6 => simp only [prepend, List.length_cons] at *; omega
  | case7 _ d ds =>
    have := parseTag_length (d :: ds)
    simp only [prepend, List.length_cons] at *; omega
  | case8 => simp only [prepend, List.length_cons] at *; omega

/-- parser.go:353-362: drop everything between `<` and `>`, and every `>`. -/
def stripTags (inTag : Bool) : Bytes → Bytes
  | [] => []
  | c :: cs =>
    if c = c!"<" then stripTags true cs
    else if c = c!">" then stripTags false cs
    else if inTag then stripTags inTag cs
    else c :: stripTags inTag cs

/-- parser.go:349-365 extractTextContent -/
def extractTextContent (content : Bytes) : Bytes := trimSpace (stripTags false content)

/-- parser.go:374-396: text at nesting depth 0; `prev` is `content[i-1]`. -/
def directText (prev : Option UInt8) (inTag : Bool) (depth : Int) : Bytes → Bytes
  | [] => []
  | c :: cs =>
    if c = c!"<" then
      let depth' : Int :=
        match cs with
        | [] => depth
        | d :: _ => if d = c!"/" then depth - 1 else if d ≠ c!"!" && d ≠ c!"?" then depth + 1 else depth
      directText (some c) true depth' cs
    else if c = c!">" then
      directText (some c) false (if prev = some c!"/" then depth - 1 else depth) cs
    else if !inTag && depth == 0 then c :: directText (some c) inTag depth cs
    else directText (some c) inTag depth cs

/-- parser.go:369-399 extractDirectTextOnly -/
def extractDirectTextOnly (content : Bytes) : Bytes := trimSpace (directText none false 0 content)

/-- parser.go:425-437: rest after a DOCTYPE declaration, tracking `[` `]` depth. -/
def skipDoctype (depth : Int) : Bytes → Bytes
  | [] => []
  | c :: cs =>
    if c = c!"[" then skipDoctype (depth + 1) cs
    else if c = c!"]" then skipDoctype (depth - 1) cs
    else if c = c!">" && depth == 0 then cs
    else skipDoctype depth cs

/-- parser.go:446-452: rest after `-->`; stops with two bytes left if there is none. -/
def skipCommentP : Bytes → Bytes
  | a :: b :: c :: r =>
    if a = c!"-" && b = c!"-" && c = c!">" then r else skipCommentP (b :: c :: r)
  | r => r

theorem skipDoctype_length (d : Int) (r : Bytes) : (skipDoctype d r).length ≤ r.length := by
  induction r generalizing d with
  | nil => simp [skipDoctype]
  | cons c cs ih =>
    simp only [skipDoctype]
    have h1 := ih (d + 1); have h2 := ih (d - 1); have h3 := ih d
    repeat' split
    all_goals simp only [List.length_cons]; omega

theorem skipCommentP_length (r : Bytes) : (skipCommentP r).length ≤ r.length := by
  fun_induction skipCommentP r with
  | case1 => simp only [List.length_cons]; omega
  | case2 => simp only [List.length_cons] at *; omega
  | case3 => simp

/-- parser.go:415-421: does the suffix start with `<!DOCTYPE` in any case. -/
def isDoctype (r : Bytes) : Bool := equalFoldASCII (r.take 9) b!"<!DOCTYPE"

/-- parser.go:402-471 skipToNextElement: the suffix starting at the next opening tag. -/
def skipToNext (r : Bytes) : Option Bytes :=
  match r with
  | [] => none
  | c :: cs =>
    if c = c!"<" then
      match cs with
      | [] => none
      | d :: ds =>
        if d ≠ c!"!" && d ≠ c!"?" && d ≠ c!"/" then some (c :: d :: ds)
        else if d = c!"!" then
          if isDoctype (c :: d :: ds) then skipToNext (skipDoctype 0 (ds.drop 7))
          else if b!"--".isPrefixOf ds then skipToNext (skipCommentP ds)
          else skipToNext ds
        else skipToNext ((readUntil c!">" (c :: d :: ds)).2.drop 1)
    else skipToNext cs
termination_by r.length
decreasing_by
  · have := skipDoctype_length 0 (ds.drop 7); simp only [List.length_drop, List.length_cons] at *; omega
  · have := skipCommentP_length ds; simp only [List.length_cons]; omega
  · simp only [List.length_cons]; omega
  · rename_i hc _ _
    have := readUntil_cons_length c!">" c (d :: ds) (by rw [hc]; decide)
    simp only [List.length_drop, List.length_cons] at *; omega
  · simp

theorem skipToNext_length (r s : Bytes) (h : skipToNext r = some s) : s.length ≤ r.length := by
  fun_induction skipToNext r with
  | case1 => simp at h
  | case2 => simp at h
  | case3 => simp at h; subst h; simp
  | case4 =>
    rename_i ds _ _ ih
    have := ih h; have h2 := skipDoctype_length 0 (ds.drop 7)
    simp only [List.length_drop, List.length_cons] at *; omega
  | case5 =>
    rename_i ds _ _ _ ih
    have := ih h; have h2 := skipCommentP_length ds
    simp only [List.length_cons] at *; omega
  | case6 => rename_i ih; have := ih h; simp only [List.length_cons] at *; omega
  | case7 =>
    rename_i d ds _ _ ih
    have := ih h; have h2 := readUntil_cons_length c!">" c!"<" (d :: ds) (by decide)
    simp only [List.length_drop, List.length_cons] at *; omega
  | case8 => rename_i ih; have := ih h; simp only [List.length_cons] at *; omega

end Verif
