import Verif.Model.Html
/-
Tests of the model: the examples of /repo/commonmark/tests/unit_tests.py:31-118, generated by tools/gen_examples.py.
-/
namespace CM

/-- test_output -/
example : (toHtml false {} ("*hello!*".toList)).toOption = some ("<p><em>hello!</em></p>\n".toList) := by decide +kernel
/-- test_unicode -/
example : (toHtml false {} ("<div>†</div>\n".toList)).toOption = some ("<div>†</div>\n".toList) := by decide +kernel
/-- test_null_string_bug -/
example : (toHtml false {} (">     sometext\n>\n\n".toList)).toOption = some ("<blockquote>\n<pre><code>sometext\n</code></pre>\n</blockquote>".toList ++ "\n".toList) := by decide +kernel
/-- test_smart_dashes -/
example : (toHtml true {} ("a - b -- c --- d ---- e ----- f".toList)).toOption = some ("<p>a - b – c — d –– e —– f</p>\n".toList) := by decide +kernel
/-- test_regex_vulnerability_link_label -/
example : (toHtml false {} ("[\\\\\\\\\\\\\\\\\\\\\\\\\\\\\\\\\\\\\\\\\\\\\\\\\\\\\\\\\\\\\\\\\\\\\\\\\\\\\\\\\\\\\\\\\\\\\\\\\\\\\\\\\\\\\\\\\\\\\\".toList ++ "\\\\\\\\\\\\\\\\\\\\\\\\\\\\\\\\\\\\\\\\\\\\\\\\\\\\\\\\\\\\\\\\\\\\\\\\\\\\\\\\\\\\\\\\\\\\\\\\\\\\\\\\\\\\\\\\\\\\\\\\".toList ++ "\\\\\\\\\\\\\\\\\\\\\\\\\\\\\\\\\\\\\\\\\\\\\\\\\\\\\\\\\\\\\\\\\\\\\\\\\\\\\\\\\\\\\\\\\\\\\\\\\\\\\\\\\\\\\\\\\\\\\\\\".toList ++ "\\\\\\\\\\\\\\\\\\\\\\\\\\\\\\\\\\\\\\\\\\\n".toList)).toOption = some ("<p>[\\\\\\\\\\\\\\\\\\\\\\\\\\\\\\\\\\\\\\\\\\\\\\\\\\\\\\\\\\\\\\\\\\\\\\\\\\\\\\\\\\\\\\\\\\\\\\\\\\\\\\\\\\\\\\\\".toList ++ "\\\\\\\\\\\\\\\\\\\\\\\\\\\\\\\\\\\\\\\\\\\\\\\\\\\\\\\\\\\\\\\\\\\\\\\\\\\\\\\\\\\\\\\\</p>\n".toList) := by decide +kernel
/-- test_regex_vulnerability_link_destination -/
example : (toHtml false {} ("[]([]([]([]([]([]([]([]([]([]([]([]([]([]([]([]([]([]([]([](".toList ++ "[]([]([]([]([]([]([]([]([]([]([]([]([]([]([]([]([]([]([]([](".toList ++ "[]([]([]([]([]([]([]([]([]([](\n".toList)).toOption = some ("<p>[]([]([]([]([]([]([]([]([]([]([]([]([]([]([]([]([]([]([](".toList ++ "[]([]([]([]([]([]([]([]([]([]([]([]([]([]([]([]([]([]([]([](".toList ++ "[]([]([]([]([]([]([]([]([]([]([](</p>\n".toList) := by decide +kernel

end CM
