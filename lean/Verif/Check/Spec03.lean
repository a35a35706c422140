import Verif.Model.Html
/-
Tests of the model: examples 131 to 195 of /repo/spec.txt, generated by tools/gen_examples.py.
-/
namespace CM

/-- example 131 -/
example : (toHtml false {} ("<div></div>\n``` c\nint x = 33;\n```\n".toList)).toOption = some ("<div></div>\n``` c\nint x = 33;\n```\n".toList) := by decide +kernel
/-- example 132 -/
example : (toHtml false {} ("<a href=\"foo\">\n*bar*\n</a>\n".toList)).toOption = some ("<a href=\"foo\">\n*bar*\n</a>\n".toList) := by decide +kernel
/-- example 133 -/
example : (toHtml false {} ("<Warning>\n*bar*\n</Warning>\n".toList)).toOption = some ("<Warning>\n*bar*\n</Warning>\n".toList) := by decide +kernel
/-- example 134 -/
example : (toHtml false {} ("<i class=\"foo\">\n*bar*\n</i>\n".toList)).toOption = some ("<i class=\"foo\">\n*bar*\n</i>\n".toList) := by decide +kernel
/-- example 135 -/
example : (toHtml false {} ("</ins>\n*bar*\n".toList)).toOption = some ("</ins>\n*bar*\n".toList) := by decide +kernel
/-- example 136 -/
example : (toHtml false {} ("<del>\n*foo*\n</del>\n".toList)).toOption = some ("<del>\n*foo*\n</del>\n".toList) := by decide +kernel
/-- example 137 -/
example : (toHtml false {} ("<del>\n\n*foo*\n\n</del>\n".toList)).toOption = some ("<del>\n<p><em>foo</em></p>\n</del>\n".toList) := by decide +kernel
/-- example 138 -/
example : (toHtml false {} ("<del>*foo*</del>\n".toList)).toOption = some ("<p><del><em>foo</em></del></p>\n".toList) := by decide +kernel
/-- example 139 -/
example : (toHtml false {} ("<pre language=\"haskell\"><code>\nimport Text.HTML.TagSoup\n\nmai".toList ++ "n :: IO ()\nmain = print $ parseTags tags\n</code></pre>\nokay\n".toList)).toOption = some ("<pre language=\"haskell\"><code>\nimport Text.HTML.TagSoup\n\nmai".toList ++ "n :: IO ()\nmain = print $ parseTags tags\n</code></pre>\n<p>ok".toList ++ "ay</p>\n".toList) := by decide +kernel
/-- example 140 -/
example : (toHtml false {} ("<script type=\"text/javascript\">\n// JavaScript example\n\ndocum".toList ++ "ent.getElementById(\"demo\").innerHTML = \"Hello JavaScript!\";\n".toList ++ "</script>\nokay\n".toList)).toOption = some ("<script type=\"text/javascript\">\n// JavaScript example\n\ndocum".toList ++ "ent.getElementById(\"demo\").innerHTML = \"Hello JavaScript!\";\n".toList ++ "</script>\n<p>okay</p>\n".toList) := by decide +kernel
/-- example 141 -/
example : (toHtml false {} ("<style\n  type=\"text/css\">\nh1 {color:red;}\n\np {color:blue;}\n<".toList ++ "/style>\nokay\n".toList)).toOption = some ("<style\n  type=\"text/css\">\nh1 {color:red;}\n\np {color:blue;}\n<".toList ++ "/style>\n<p>okay</p>\n".toList) := by decide +kernel
/-- example 142 -/
example : (toHtml false {} ("<style\n  type=\"text/css\">\n\nfoo\n".toList)).toOption = some ("<style\n  type=\"text/css\">\n\nfoo\n".toList) := by decide +kernel
/-- example 143 -/
example : (toHtml false {} ("> <div>\n> foo\n\nbar\n".toList)).toOption = some ("<blockquote>\n<div>\nfoo\n</blockquote>\n<p>bar</p>\n".toList) := by decide +kernel
/-- example 144 -/
example : (toHtml false {} ("- <div>\n- foo\n".toList)).toOption = some ("<ul>\n<li>\n<div>\n</li>\n<li>foo</li>\n</ul>\n".toList) := by decide +kernel
/-- example 145 -/
example : (toHtml false {} ("<style>p{color:red;}</style>\n*foo*\n".toList)).toOption = some ("<style>p{color:red;}</style>\n<p><em>foo</em></p>\n".toList) := by decide +kernel
/-- example 146 -/
example : (toHtml false {} ("<!-- foo -->*bar*\n*baz*\n".toList)).toOption = some ("<!-- foo -->*bar*\n<p><em>baz</em></p>\n".toList) := by decide +kernel
/-- example 147 -/
example : (toHtml false {} ("<script>\nfoo\n</script>1. *bar*\n".toList)).toOption = some ("<script>\nfoo\n</script>1. *bar*\n".toList) := by decide +kernel
/-- example 148 -/
example : (toHtml false {} ("<!-- Foo\n\nbar\n   baz -->\nokay\n".toList)).toOption = some ("<!-- Foo\n\nbar\n   baz -->\n<p>okay</p>\n".toList) := by decide +kernel
/-- example 149 -/
example : (toHtml false {} ("<?php\n\n  echo '>';\n\n?>\nokay\n".toList)).toOption = some ("<?php\n\n  echo '>';\n\n?>\n<p>okay</p>\n".toList) := by decide +kernel
/-- example 150 -/
example : (toHtml false {} ("<!DOCTYPE html>\n".toList)).toOption = some ("<!DOCTYPE html>\n".toList) := by decide +kernel
/-- example 151 -/
example : (toHtml false {} ("<![CDATA[\nfunction matchwo(a,b)\n{\n  if (a < b && a < 0) then".toList ++ " {\n    return 1;\n\n  } else {\n\n    return 0;\n  }\n}\n]]>\nokay\n".toList)).toOption = some ("<![CDATA[\nfunction matchwo(a,b)\n{\n  if (a < b && a < 0) then".toList ++ " {\n    return 1;\n\n  } else {\n\n    return 0;\n  }\n}\n]]>\n<p>oka".toList ++ "y</p>\n".toList) := by decide +kernel
/-- example 152 -/
example : (toHtml false {} ("  <!-- foo -->\n\n    <!-- foo -->\n".toList)).toOption = some ("  <!-- foo -->\n<pre><code>&lt;!-- foo --&gt;\n</code></pre>\n".toList) := by decide +kernel
/-- example 153 -/
example : (toHtml false {} ("  <div>\n\n    <div>\n".toList)).toOption = some ("  <div>\n<pre><code>&lt;div&gt;\n</code></pre>\n".toList) := by decide +kernel
/-- example 154 -/
example : (toHtml false {} ("Foo\n<div>\nbar\n</div>\n".toList)).toOption = some ("<p>Foo</p>\n<div>\nbar\n</div>\n".toList) := by decide +kernel
/-- example 155 -/
example : (toHtml false {} ("<div>\nbar\n</div>\n*foo*\n".toList)).toOption = some ("<div>\nbar\n</div>\n*foo*\n".toList) := by decide +kernel
/-- example 156 -/
example : (toHtml false {} ("Foo\n<a href=\"bar\">\nbaz\n".toList)).toOption = some ("<p>Foo\n<a href=\"bar\">\nbaz</p>\n".toList) := by decide +kernel
/-- example 157 -/
example : (toHtml false {} ("<div>\n\n*Emphasized* text.\n\n</div>\n".toList)).toOption = some ("<div>\n<p><em>Emphasized</em> text.</p>\n</div>\n".toList) := by decide +kernel
/-- example 158 -/
example : (toHtml false {} ("<div>\n*Emphasized* text.\n</div>\n".toList)).toOption = some ("<div>\n*Emphasized* text.\n</div>\n".toList) := by decide +kernel
/-- example 159 -/
example : (toHtml false {} ("<table>\n\n<tr>\n\n<td>\nHi\n</td>\n\n</tr>\n\n</table>\n".toList)).toOption = some ("<table>\n<tr>\n<td>\nHi\n</td>\n</tr>\n</table>\n".toList) := by decide +kernel
/-- example 160 -/
example : (toHtml false {} ("<table>\n\n  <tr>\n\n    <td>\n      Hi\n    </td>\n\n  </tr>\n\n</tab".toList ++ "le>\n".toList)).toOption = some ("<table>\n  <tr>\n<pre><code>&lt;td&gt;\n  Hi\n&lt;/td&gt;\n</code".toList ++ "></pre>\n  </tr>\n</table>\n".toList) := by decide +kernel
/-- example 161 -/
example : (toHtml false {} ("[foo]: /url \"title\"\n\n[foo]\n".toList)).toOption = some ("<p><a href=\"/url\" title=\"title\">foo</a></p>\n".toList) := by decide +kernel
/-- example 162 -/
example : (toHtml false {} ("   [foo]: \n      /url  \n           'the title'  \n\n[foo]\n".toList)).toOption = some ("<p><a href=\"/url\" title=\"the title\">foo</a></p>\n".toList) := by decide +kernel
/-- example 163 -/
example : (toHtml false {} ("[Foo*bar\\]]:my_(url) 'title (with parens)'\n\n[Foo*bar\\]]\n".toList)).toOption = some ("<p><a href=\"my_(url)\" title=\"title (with parens)\">Foo*bar]</".toList ++ "a></p>\n".toList) := by decide +kernel
/-- example 164 -/
example : (toHtml false {} ("[Foo bar]:\n<my url>\n'title'\n\n[Foo bar]\n".toList)).toOption = some ("<p><a href=\"my%20url\" title=\"title\">Foo bar</a></p>\n".toList) := by decide +kernel
/-- example 165 -/
example : (toHtml false {} ("[foo]: /url '\ntitle\nline1\nline2\n'\n\n[foo]\n".toList)).toOption = some ("<p><a href=\"/url\" title=\"\ntitle\nline1\nline2\n\">foo</a></p>\n".toList) := by decide +kernel
/-- example 166 -/
example : (toHtml false {} ("[foo]: /url 'title\n\nwith blank line'\n\n[foo]\n".toList)).toOption = some ("<p>[foo]: /url 'title</p>\n<p>with blank line'</p>\n<p>[foo]</".toList ++ "p>\n".toList) := by decide +kernel
/-- example 167 -/
example : (toHtml false {} ("[foo]:\n/url\n\n[foo]\n".toList)).toOption = some ("<p><a href=\"/url\">foo</a></p>\n".toList) := by decide +kernel
/-- example 168 -/
example : (toHtml false {} ("[foo]:\n\n[foo]\n".toList)).toOption = some ("<p>[foo]:</p>\n<p>[foo]</p>\n".toList) := by decide +kernel
/-- example 169 -/
example : (toHtml false {} ("[foo]: <>\n\n[foo]\n".toList)).toOption = some ("<p><a href=\"\">foo</a></p>\n".toList) := by decide +kernel
/-- example 170 -/
example : (toHtml false {} ("[foo]: <bar>(baz)\n\n[foo]\n".toList)).toOption = some ("<p>[foo]: <bar>(baz)</p>\n<p>[foo]</p>\n".toList) := by decide +kernel
/-- example 171 -/
example : (toHtml false {} ("[foo]: /url\\bar\\*baz \"foo\\\"bar\\baz\"\n\n[foo]\n".toList)).toOption = some ("<p><a href=\"/url%5Cbar*baz\" title=\"foo&quot;bar\\baz\">foo</a>".toList ++ "</p>\n".toList) := by decide +kernel
/-- example 172 -/
example : (toHtml false {} ("[foo]\n\n[foo]: url\n".toList)).toOption = some ("<p><a href=\"url\">foo</a></p>\n".toList) := by decide +kernel
/-- example 173 -/
example : (toHtml false {} ("[foo]\n\n[foo]: first\n[foo]: second\n".toList)).toOption = some ("<p><a href=\"first\">foo</a></p>\n".toList) := by decide +kernel
/-- example 174 -/
example : (toHtml false {} ("[FOO]: /url\n\n[Foo]\n".toList)).toOption = some ("<p><a href=\"/url\">Foo</a></p>\n".toList) := by decide +kernel
/-- example 175 -/
example : (toHtml false {} ("[ΑΓΩ]: /φου\n\n[αγω]\n".toList)).toOption = some ("<p><a href=\"/%CF%86%CE%BF%CF%85\">αγω</a></p>\n".toList) := by decide +kernel
/-- example 176 -/
example : (toHtml false {} ("[foo]: /url\n".toList)).toOption = some ([]) := by decide +kernel
/-- example 177 -/
example : (toHtml false {} ("[\nfoo\n]: /url\nbar\n".toList)).toOption = some ("<p>bar</p>\n".toList) := by decide +kernel
/-- example 178 -/
example : (toHtml false {} ("[foo]: /url \"title\" ok\n".toList)).toOption = some ("<p>[foo]: /url &quot;title&quot; ok</p>\n".toList) := by decide +kernel
/-- example 179 -/
example : (toHtml false {} ("[foo]: /url\n\"title\" ok\n".toList)).toOption = some ("<p>&quot;title&quot; ok</p>\n".toList) := by decide +kernel
/-- example 180 -/
example : (toHtml false {} ("    [foo]: /url \"title\"\n\n[foo]\n".toList)).toOption = some ("<pre><code>[foo]: /url &quot;title&quot;\n</code></pre>\n<p>[f".toList ++ "oo]</p>\n".toList) := by decide +kernel
/-- example 181 -/
example : (toHtml false {} ("```\n[foo]: /url\n```\n\n[foo]\n".toList)).toOption = some ("<pre><code>[foo]: /url\n</code></pre>\n<p>[foo]</p>\n".toList) := by decide +kernel
/-- example 182 -/
example : (toHtml false {} ("Foo\n[bar]: /baz\n\n[bar]\n".toList)).toOption = some ("<p>Foo\n[bar]: /baz</p>\n<p>[bar]</p>\n".toList) := by decide +kernel
/-- example 183 -/
example : (toHtml false {} ("# [Foo]\n[foo]: /url\n> bar\n".toList)).toOption = some ("<h1><a href=\"/url\">Foo</a></h1>\n<blockquote>\n<p>bar</p>\n</bl".toList ++ "ockquote>\n".toList) := by decide +kernel
/-- example 184 -/
example : (toHtml false {} ("[foo]: /url\nbar\n===\n[foo]\n".toList)).toOption = some ("<h1>bar</h1>\n<p><a href=\"/url\">foo</a></p>\n".toList) := by decide +kernel
/-- example 185 -/
example : (toHtml false {} ("[foo]: /url\n===\n[foo]\n".toList)).toOption = some ("<p>===\n<a href=\"/url\">foo</a></p>\n".toList) := by decide +kernel
/-- example 186 -/
example : (toHtml false {} ("[foo]: /foo-url \"foo\"\n[bar]: /bar-url\n  \"bar\"\n[baz]: /baz-ur".toList ++ "l\n\n[foo],\n[bar],\n[baz]\n".toList)).toOption = some ("<p><a href=\"/foo-url\" title=\"foo\">foo</a>,\n<a href=\"/bar-url".toList ++ "\" title=\"bar\">bar</a>,\n<a href=\"/baz-url\">baz</a></p>\n".toList) := by decide +kernel
/-- example 187 -/
example : (toHtml false {} ("[foo]\n\n> [foo]: /url\n".toList)).toOption = some ("<p><a href=\"/url\">foo</a></p>\n<blockquote>\n</blockquote>\n".toList) := by decide +kernel
/-- example 188 -/
example : (toHtml false {} ("[foo]: /url\n".toList)).toOption = some ([]) := by decide +kernel
/-- example 189 -/
example : (toHtml false {} ("aaa\n\nbbb\n".toList)).toOption = some ("<p>aaa</p>\n<p>bbb</p>\n".toList) := by decide +kernel
/-- example 190 -/
example : (toHtml false {} ("aaa\nbbb\n\nccc\nddd\n".toList)).toOption = some ("<p>aaa\nbbb</p>\n<p>ccc\nddd</p>\n".toList) := by decide +kernel
/-- example 191 -/
example : (toHtml false {} ("aaa\n\n\nbbb\n".toList)).toOption = some ("<p>aaa</p>\n<p>bbb</p>\n".toList) := by decide +kernel
/-- example 192 -/
example : (toHtml false {} ("  aaa\n bbb\n".toList)).toOption = some ("<p>aaa\nbbb</p>\n".toList) := by decide +kernel
/-- example 193 -/
example : (toHtml false {} ("aaa\n             bbb\n                                       ".toList ++ "ccc\n".toList)).toOption = some ("<p>aaa\nbbb\nccc</p>\n".toList) := by decide +kernel
/-- example 194 -/
example : (toHtml false {} ("   aaa\nbbb\n".toList)).toOption = some ("<p>aaa\nbbb</p>\n".toList) := by decide +kernel
/-- example 195 -/
example : (toHtml false {} ("    aaa\nbbb\n".toList)).toOption = some ("<pre><code>aaa\n</code></pre>\n<p>bbb</p>\n".toList) := by decide +kernel

end CM
