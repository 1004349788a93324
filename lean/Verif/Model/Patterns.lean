import Verif.Model.ReSyntax
import Verif.Model.NlpNumber
import Verif.Model.VersionParse
import Verif.Model.Table
import Verif.Model.XmlHelper
/-!
# The pattern texts of the library, as the source assembles them
-/
namespace Pawpaw
namespace Patterns

/-! ### `_version.py` -/

/-- `Version._canonical_re`, `/repo/pawpaw/_version.py:10` -/
def canonical : List Char :=
  "^([1-9][0-9]*!)?(0|[1-9][0-9]*)(\\.(0|[1-9][0-9]*))*((a|b|rc)(0|[1-9][0-9]*))?(\\.post(0|[1-9][0-9]*))?(\\.dev(0|[1-9][0-9]*))?(?:\\+[a-z0-9]+(?:[-_\\.][a-z0-9]+)*)?$".toList

/-- `Version._parse_pat`, `/repo/pawpaw/_version.py:18-47` -/
def parsePat : List Char :=
  ["",
   "    v?",
   "    (?:",
   "        (?:(?P<epoch>[0-9]+)!)?                           # epoch",
   "        (?P<release>[0-9]+(?:\\.[0-9]+)*)                  # release segment",
   "        (?P<pre>                                          # pre-release",
   "            [-_\\.]?",
   "            (?P<pre_l>a|b|c|rc|alpha|beta|pre|preview)",
   "            [-_\\.]?",
   "            (?P<pre_n>[0-9]+)?",
   "        )?",
   "        (?P<post>                                         # post release",
   "            (?:-(?P<post_n1>[0-9]+))",
   "            |",
   "            (?:",
   "                [-_\\.]?",
   "                (?P<post_l>post|rev|r)",
   "                [-_\\.]?",
   "                (?P<post_n2>[0-9]+)?",
   "            )",
   "        )?",
   "        (?P<dev>                                          # dev release",
   "            [-_\\.]?",
   "            (?P<dev_l>dev)",
   "            [-_\\.]?",
   "            (?P<dev_n>[0-9]+)?",
   "        )?",
   "    )",
   "    (?:\\+(?P<local>[a-z0-9]+(?:[-_\\.][a-z0-9]+)*))?       # local version"].flatMap fun l => l.toList ++ ['\n']

/-- `Version.parse_re`, `/repo/pawpaw/_version.py:51` (flags VERBOSE and IGNORECASE) -/
def parse : List Char := "^\\s*".toList ++ parsePat ++ "\\s*$".toList

/-! ### `xml` -/

/-- `_NAMESPACE`, `/repo/pawpaw/xml/xml_parser.py:13` -/
def xmlNamespace : List Char := "(?P<".toList ++ "namespace".toList ++ ">[^ :]+):".toList
/-- `_NAME`, `/repo/pawpaw/xml/xml_parser.py:14` -/
def xmlName : List Char := "(?P<".toList ++ "name".toList ++ ">[^ />=]+)".toList
/-- `_TAG`, `/repo/pawpaw/xml/xml_parser.py:15` -/
def xmlTag : List Char := "(?P<".toList ++ "tag".toList ++ ">(?:".toList ++ xmlNamespace ++ ")?".toList ++ xmlName ++ ")".toList
/-- `_VALUE`, `/repo/pawpaw/xml/xml_parser.py:17` -/
def xmlValue : List Char := "=\"(?P<".toList ++ "value".toList ++ ">[^\"]+)\"".toList
/-- `_ATTRIBUTE`, `/repo/pawpaw/xml/xml_parser.py:18-20` -/
def xmlAttribute : List Char := "(?P<".toList ++ "attribute".toList ++ ">".toList ++ (xmlTag ++ xmlValue) ++ ")".toList
/-- The pattern of `_itor_extract_tag`, `/repo/pawpaw/xml/xml_parser.py:22` -/
def xmlExtractTag : List Char := "\\<[\\/\\?]?".toList ++ xmlTag
/-- `_PI`, `/repo/pawpaw/xml/xml_parser.py:25` -/
def xmlPi : List Char := "(?P<".toList ++ "pi".toList ++ ">\\<\\?(?P<".toList ++ "value".toList ++ ">.*?)\\?\\>)".toList
/-- `_COMMENT`, `/repo/pawpaw/xml/xml_parser.py:26` -/
def xmlComment : List Char := "(?P<".toList ++ "comment".toList ++ ">\\<\\!\\-\\-(?P<".toList ++ "value".toList ++ ">.*?)\\-\\-\\>)".toList
/-- The pattern of `_itor_extract_pi_comments`, `/repo/pawpaw/xml/xml_parser.py:28` -/
def xmlText : List Char := xmlPi ++ "|".toList ++ xmlComment
/-- `_re_xmlns`, `/repo/pawpaw/xml/xml_helper.py:95` -/
def xmlns : List Char := "xmlns(?:\\:.+)?".toList

/-! ### `nlp.py` -/

/-- `to_re_char_set(chars)`, `/repo/pawpaw/nlp/nlp.py:97-102`; `regex.escape` is a parameter. -/
def charSet (escape : List Char → List Char) (inclusive : Bool) (chars : List Char) : List Char :=
  "[".toList ++ (if inclusive then [] else "^".toList) ++ escape chars ++ "]".toList

/-- `Paragraph._build_re`, `/repo/pawpaw/nlp/nlp.py:257-258`; `num` is the decimal text of `min_separators`. -/
def para (escape : List Char → List Char) (num : List Char) : List Char :=
  "(?:".toList ++ charSet escape true NlpRe.blanks ++ "*\\L<para_seps>){".toList ++ num ++ ",}".toList

/-- `'|'.join(_terminators)`, `/repo/pawpaw/nlp/nlp.py:319-324` -/
def terminators : List Char := "\\.".toList ++ "|".toList ++ "\\.{3,}".toList ++ "|".toList ++ "…".toList ++ "|".toList ++ "[\\!\\?]+".toList
/-- `''.join(_exceptions)`, `/repo/pawpaw/nlp/nlp.py:427-432` -/
def exceptions : List Char :=
  "(?<!\\L<ignores>)".toList ++ "(?<!\\L<num_abbrs>(?=\\L<sen_ws>\\d))".toList ++
  "(?<![A-Z][a-z]+\\L<sen_ws>[A-Z]\\.(?=\\L<sen_ws>[A-Z][a-z]+))".toList ++ "(?<!U\\.S\\.(?=\\L<sen_ws>Government))".toList
/-- `'|'.join(f'(?:{r})' for r in _rules)`, `/repo/pawpaw/nlp/nlp.py:434-451` -/
def rules : List Char :=
  "(?:".toList ++ "\\L<sen_ws>*$".toList ++ ")".toList ++ "|".toList ++ "(?:".toList ++ "\\L<sen_ws>{2,}".toList ++ ")".toList ++ "|".toList ++
  "(?:".toList ++ "\\L<sen_ws>(?=\\L<sen_pre>*\\L<hf_starts>\\L<sen_ws>)".toList ++ ")".toList ++ "|".toList ++
  "(?:".toList ++ (exceptions ++ "\\L<sen_ws>(?=\\L<sen_pre>*[A-Z\\d])".toList) ++ ")".toList
/-- `Sentence._re`, `/repo/pawpaw/nlp/nlp.py:453-462` -/
def sentence : List Char := "(?<=\\w(".toList ++ terminators ++ ")\\L<sen_suf>*)(?:".toList ++ rules ++ ")".toList
/-- The lists given to `regex.compile`, `/repo/pawpaw/nlp/nlp.py:453-462` (`_re`), `:257` (`Paragraph`, whose separators
are `seps`) and `:489` (words).  A list of texts is the alternation of them, in the order of `NlpRe`; the lists of
single characters are classes. -/
def lists (seps : List Char) (n : List Char) : Regex.Re :=
  if n = "sen_suf".toList then NlpRe.oneOf NlpRe.sufs
  else if n = "sen_ws".toList then NlpRe.ws
  else if n = "sen_pre".toList then NlpRe.oneOf NlpRe.pres
  else if n = "hf_starts".toList then NlpRe.anyLit NlpRe.hfStarts
  else if n = "ignores".toList then NlpRe.anyLit NlpRe.ignores
  else if n = "num_abbrs".toList then NlpRe.anyLit NlpRe.numAbbrs
  else if n = "sqs".toList then NlpRe.oneOf NlpRe.quotes1
  else if n = "para_seps".toList then NlpRe.oneOf seps
  else .chr fun _ => false
/-- `SimpleNlp`'s words, `/repo/pawpaw/nlp/nlp.py:473,489` -/
def word : List Char := "(?P<word>".toList ++ "\\w(?:(?:\\L<sqs>|-\\s*)?\\w)*".toList ++ ")".toList
/-- `SimpleNlp`'s characters, `/repo/pawpaw/nlp/nlp.py:495` -/
def char : List Char := "(?P<char>\\w)".toList

/-! ### `table` -/

/-- `StyledTable._re_equi_ident`, `/repo/pawpaw/table/table.py:32-33` -/
def chunk : List Char :=
  "(?<=^|\\n)(?P<chunk>(?P<indent>".toList ++ "[ \\t]*".toList ++ ")[^ \\t][^\\n]+?\\n(?:(?P=indent)[^ \\t][^\\n]+?(?:\\n|$))+)".toList

/-- `TableStyle`, `/repo/pawpaw/table/table.py:19-27` -/
structure TextStyle where
  preCaption : Option (List Char) := none
  tableStart : List Char
  headerRowEnd : Option (List Char) := none
  rowSep : List Char
  tableEnd : Option (List Char) := none
  postCaption : Option (List Char) := none
  equi : Bool := true

/-- `pat_indent`, `/repo/pawpaw/table/table.py:39-43` -/
def indent (S : TextStyle) : List Char := if S.equi then "(?P=indent)".toList else []

/-- `\n{pat_indent}(?<row>.+?)\n{pat_indent}` and what follows, `/repo/pawpaw/table/table.py:53-59` -/
def cell (S : TextStyle) (name stop : List Char) : List Char :=
  "\\n".toList ++ indent S ++ "(?<".toList ++ name ++ ">.+?)\\n".toList ++ indent S ++ stop

/-- `StyledTable._build_re`, `/repo/pawpaw/table/table.py:35-66`: the text -/
def buildTable (S : TextStyle) : List Char :=
  (if S.equi then "(?P<indent>[ \\t]*)".toList else "(?<=^|\\n)".toList) ++ "(?<table>".toList ++
  (match S.preCaption with
   | none => []
   | some p => "(?:(?<pre_caption>".toList ++ p ++ ")\\n".toList ++ indent S ++ ")?".toList) ++
  S.tableStart ++
  (match S.headerRowEnd with
   | none => []
   | some p => "(?:".toList ++ cell S "header_row".toList p ++ ")?".toList) ++
  (match S.tableEnd with
   | none => "(?:".toList ++ cell S "row".toList S.rowSep ++ ")+".toList
   | some e => "(?:".toList ++ cell S "row".toList S.rowSep ++ ")*".toList ++ cell S "row".toList e) ++
  (match S.postCaption with
   | none => []
   | some p => "\\n".toList ++ indent S ++ "(?<post_caption>".toList ++ p ++ ")(?=\\n|$)".toList) ++
  ")(?=$|\\n)".toList

/-- `TYPE_1`, `/repo/pawpaw/table/styles/styles.py:27-32` -/
def type1 : TextStyle := { tableStart := "(?:-{2,}(?:\\+-+)+)".toList, rowSep := "(?:-{2,}(?:\\+-+)+)".toList, equi := false }
/-- `TYPE_2`, `/repo/pawpaw/table/styles/styles.py:46-52` -/
def type2 : TextStyle :=
  { tableStart := "-{2,}".toList, rowSep := "\\|(?:-+\\|)+".toList, tableEnd := some "-{2,}".toList }

end Patterns
end Pawpaw
