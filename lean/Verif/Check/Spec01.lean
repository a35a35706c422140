import Verif.Model.Html
/-
Tests of the model: examples 1 to 65 of /repo/spec.txt, generated by tools/gen_examples.py.
-/
namespace CM

/-- example 1 -/
example : (toHtml false {} ("\tfoo\tbaz\t\tbim\n".toList)).toOption = some ("<pre><code>foo\tbaz\t\tbim\n</code></pre>\n".toList) := by decide +kernel
/-- example 2 -/
example : (toHtml false {} ("  \tfoo\tbaz\t\tbim\n".toList)).toOption = some ("<pre><code>foo\tbaz\t\tbim\n</code></pre>\n".toList) := by decide +kernel
/-- example 3 -/
example : (toHtml false {} ("    a\ta\n    ὐ\ta\n".toList)).toOption = some ("<pre><code>a\ta\nὐ\ta\n</code></pre>\n".toList) := by decide +kernel
/-- example 4 -/
example : (toHtml false {} ("  - foo\n\n\tbar\n".toList)).toOption = some ("<ul>\n<li>\n<p>foo</p>\n<p>bar</p>\n</li>\n</ul>\n".toList) := by decide +kernel
/-- example 5 -/
example : (toHtml false {} ("- foo\n\n\t\tbar\n".toList)).toOption = some ("<ul>\n<li>\n<p>foo</p>\n<pre><code>  bar\n</code></pre>\n</li>\n</".toList ++ "ul>\n".toList) := by decide +kernel
/-- example 6 -/
example : (toHtml false {} (">\t\tfoo\n".toList)).toOption = some ("<blockquote>\n<pre><code>  foo\n</code></pre>\n</blockquote>\n".toList) := by decide +kernel
/-- example 7 -/
example : (toHtml false {} ("-\t\tfoo\n".toList)).toOption = some ("<ul>\n<li>\n<pre><code>  foo\n</code></pre>\n</li>\n</ul>\n".toList) := by decide +kernel
/-- example 8 -/
example : (toHtml false {} ("    foo\n\tbar\n".toList)).toOption = some ("<pre><code>foo\nbar\n</code></pre>\n".toList) := by decide +kernel
/-- example 9 -/
example : (toHtml false {} (" - foo\n   - bar\n\t - baz\n".toList)).toOption = some ("<ul>\n<li>foo\n<ul>\n<li>bar\n<ul>\n<li>baz</li>\n</ul>\n</li>\n</ul".toList ++ ">\n</li>\n</ul>\n".toList) := by decide +kernel
/-- example 10 -/
example : (toHtml false {} ("#\tFoo\n".toList)).toOption = some ("<h1>Foo</h1>\n".toList) := by decide +kernel
/-- example 11 -/
example : (toHtml false {} ("*\t*\t*\t\n".toList)).toOption = some ("<hr />\n".toList) := by decide +kernel
/-- example 12 -/
example : (toHtml false {} ("- `one\n- two`\n".toList)).toOption = some ("<ul>\n<li>`one</li>\n<li>two`</li>\n</ul>\n".toList) := by decide +kernel
/-- example 13 -/
example : (toHtml false {} ("***\n---\n___\n".toList)).toOption = some ("<hr />\n<hr />\n<hr />\n".toList) := by decide +kernel
/-- example 14 -/
example : (toHtml false {} ("+++\n".toList)).toOption = some ("<p>+++</p>\n".toList) := by decide +kernel
/-- example 15 -/
example : (toHtml false {} ("===\n".toList)).toOption = some ("<p>===</p>\n".toList) := by decide +kernel
/-- example 16 -/
example : (toHtml false {} ("--\n**\n__\n".toList)).toOption = some ("<p>--\n**\n__</p>\n".toList) := by decide +kernel
/-- example 17 -/
example : (toHtml false {} (" ***\n  ***\n   ***\n".toList)).toOption = some ("<hr />\n<hr />\n<hr />\n".toList) := by decide +kernel
/-- example 18 -/
example : (toHtml false {} ("    ***\n".toList)).toOption = some ("<pre><code>***\n</code></pre>\n".toList) := by decide +kernel
/-- example 19 -/
example : (toHtml false {} ("Foo\n    ***\n".toList)).toOption = some ("<p>Foo\n***</p>\n".toList) := by decide +kernel
/-- example 20 -/
example : (toHtml false {} ("_____________________________________\n".toList)).toOption = some ("<hr />\n".toList) := by decide +kernel
/-- example 21 -/
example : (toHtml false {} (" - - -\n".toList)).toOption = some ("<hr />\n".toList) := by decide +kernel
/-- example 22 -/
example : (toHtml false {} (" **  * ** * ** * **\n".toList)).toOption = some ("<hr />\n".toList) := by decide +kernel
/-- example 23 -/
example : (toHtml false {} ("-     -      -      -\n".toList)).toOption = some ("<hr />\n".toList) := by decide +kernel
/-- example 24 -/
example : (toHtml false {} ("- - - -    \n".toList)).toOption = some ("<hr />\n".toList) := by decide +kernel
/-- example 25 -/
example : (toHtml false {} ("_ _ _ _ a\n\na------\n\n---a---\n".toList)).toOption = some ("<p>_ _ _ _ a</p>\n<p>a------</p>\n<p>---a---</p>\n".toList) := by decide +kernel
/-- example 26 -/
example : (toHtml false {} (" *-*\n".toList)).toOption = some ("<p><em>-</em></p>\n".toList) := by decide +kernel
/-- example 27 -/
example : (toHtml false {} ("- foo\n***\n- bar\n".toList)).toOption = some ("<ul>\n<li>foo</li>\n</ul>\n<hr />\n<ul>\n<li>bar</li>\n</ul>\n".toList) := by decide +kernel
/-- example 28 -/
example : (toHtml false {} ("Foo\n***\nbar\n".toList)).toOption = some ("<p>Foo</p>\n<hr />\n<p>bar</p>\n".toList) := by decide +kernel
/-- example 29 -/
example : (toHtml false {} ("Foo\n---\nbar\n".toList)).toOption = some ("<h2>Foo</h2>\n<p>bar</p>\n".toList) := by decide +kernel
/-- example 30 -/
example : (toHtml false {} ("* Foo\n* * *\n* Bar\n".toList)).toOption = some ("<ul>\n<li>Foo</li>\n</ul>\n<hr />\n<ul>\n<li>Bar</li>\n</ul>\n".toList) := by decide +kernel
/-- example 31 -/
example : (toHtml false {} ("- Foo\n- * * *\n".toList)).toOption = some ("<ul>\n<li>Foo</li>\n<li>\n<hr />\n</li>\n</ul>\n".toList) := by decide +kernel
/-- example 32 -/
example : (toHtml false {} ("# foo\n## foo\n### foo\n#### foo\n##### foo\n###### foo\n".toList)).toOption = some ("<h1>foo</h1>\n<h2>foo</h2>\n<h3>foo</h3>\n<h4>foo</h4>\n<h5>foo<".toList ++ "/h5>\n<h6>foo</h6>\n".toList) := by decide +kernel
/-- example 33 -/
example : (toHtml false {} ("####### foo\n".toList)).toOption = some ("<p>####### foo</p>\n".toList) := by decide +kernel
/-- example 34 -/
example : (toHtml false {} ("#5 bolt\n\n#hashtag\n".toList)).toOption = some ("<p>#5 bolt</p>\n<p>#hashtag</p>\n".toList) := by decide +kernel
/-- example 35 -/
example : (toHtml false {} ("\\## foo\n".toList)).toOption = some ("<p>## foo</p>\n".toList) := by decide +kernel
/-- example 36 -/
example : (toHtml false {} ("# foo *bar* \\*baz\\*\n".toList)).toOption = some ("<h1>foo <em>bar</em> *baz*</h1>\n".toList) := by decide +kernel
/-- example 37 -/
example : (toHtml false {} ("#                  foo                     \n".toList)).toOption = some ("<h1>foo</h1>\n".toList) := by decide +kernel
/-- example 38 -/
example : (toHtml false {} (" ### foo\n  ## foo\n   # foo\n".toList)).toOption = some ("<h3>foo</h3>\n<h2>foo</h2>\n<h1>foo</h1>\n".toList) := by decide +kernel
/-- example 39 -/
example : (toHtml false {} ("    # foo\n".toList)).toOption = some ("<pre><code># foo\n</code></pre>\n".toList) := by decide +kernel
/-- example 40 -/
example : (toHtml false {} ("foo\n    # bar\n".toList)).toOption = some ("<p>foo\n# bar</p>\n".toList) := by decide +kernel
/-- example 41 -/
example : (toHtml false {} ("## foo ##\n  ###   bar    ###\n".toList)).toOption = some ("<h2>foo</h2>\n<h3>bar</h3>\n".toList) := by decide +kernel
/-- example 42 -/
example : (toHtml false {} ("# foo ##################################\n##### foo ##\n".toList)).toOption = some ("<h1>foo</h1>\n<h5>foo</h5>\n".toList) := by decide +kernel
/-- example 43 -/
example : (toHtml false {} ("### foo ###     \n".toList)).toOption = some ("<h3>foo</h3>\n".toList) := by decide +kernel
/-- example 44 -/
example : (toHtml false {} ("### foo ### b\n".toList)).toOption = some ("<h3>foo ### b</h3>\n".toList) := by decide +kernel
/-- example 45 -/
example : (toHtml false {} ("# foo#\n".toList)).toOption = some ("<h1>foo#</h1>\n".toList) := by decide +kernel
/-- example 46 -/
example : (toHtml false {} ("### foo \\###\n## foo #\\##\n# foo \\#\n".toList)).toOption = some ("<h3>foo ###</h3>\n<h2>foo ###</h2>\n<h1>foo #</h1>\n".toList) := by decide +kernel
/-- example 47 -/
example : (toHtml false {} ("****\n## foo\n****\n".toList)).toOption = some ("<hr />\n<h2>foo</h2>\n<hr />\n".toList) := by decide +kernel
/-- example 48 -/
example : (toHtml false {} ("Foo bar\n# baz\nBar foo\n".toList)).toOption = some ("<p>Foo bar</p>\n<h1>baz</h1>\n<p>Bar foo</p>\n".toList) := by decide +kernel
/-- example 49 -/
example : (toHtml false {} ("## \n#\n### ###\n".toList)).toOption = some ("<h2></h2>\n<h1></h1>\n<h3></h3>\n".toList) := by decide +kernel
/-- example 50 -/
example : (toHtml false {} ("Foo *bar*\n=========\n\nFoo *bar*\n---------\n".toList)).toOption = some ("<h1>Foo <em>bar</em></h1>\n<h2>Foo <em>bar</em></h2>\n".toList) := by decide +kernel
/-- example 51 -/
example : (toHtml false {} ("Foo *bar\nbaz*\n====\n".toList)).toOption = some ("<h1>Foo <em>bar\nbaz</em></h1>\n".toList) := by decide +kernel
/-- example 52 -/
example : (toHtml false {} ("  Foo *bar\nbaz*\t\n====\n".toList)).toOption = some ("<h1>Foo <em>bar\nbaz</em></h1>\n".toList) := by decide +kernel
/-- example 53 -/
example : (toHtml false {} ("Foo\n-------------------------\n\nFoo\n=\n".toList)).toOption = some ("<h2>Foo</h2>\n<h1>Foo</h1>\n".toList) := by decide +kernel
/-- example 54 -/
example : (toHtml false {} ("   Foo\n---\n\n  Foo\n-----\n\n  Foo\n  ===\n".toList)).toOption = some ("<h2>Foo</h2>\n<h2>Foo</h2>\n<h1>Foo</h1>\n".toList) := by decide +kernel
/-- example 55 -/
example : (toHtml false {} ("    Foo\n    ---\n\n    Foo\n---\n".toList)).toOption = some ("<pre><code>Foo\n---\n\nFoo\n</code></pre>\n<hr />\n".toList) := by decide +kernel
/-- example 56 -/
example : (toHtml false {} ("Foo\n   ----      \n".toList)).toOption = some ("<h2>Foo</h2>\n".toList) := by decide +kernel
/-- example 57 -/
example : (toHtml false {} ("Foo\n    ---\n".toList)).toOption = some ("<p>Foo\n---</p>\n".toList) := by decide +kernel
/-- example 58 -/
example : (toHtml false {} ("Foo\n= =\n\nFoo\n--- -\n".toList)).toOption = some ("<p>Foo\n= =</p>\n<p>Foo</p>\n<hr />\n".toList) := by decide +kernel
/-- example 59 -/
example : (toHtml false {} ("Foo  \n-----\n".toList)).toOption = some ("<h2>Foo</h2>\n".toList) := by decide +kernel
/-- example 60 -/
example : (toHtml false {} ("Foo\\\n----\n".toList)).toOption = some ("<h2>Foo\\</h2>\n".toList) := by decide +kernel
/-- example 61 -/
example : (toHtml false {} ("`Foo\n----\n`\n\n<a title=\"a lot\n---\nof dashes\"/>\n".toList)).toOption = some ("<h2>`Foo</h2>\n<p>`</p>\n<h2>&lt;a title=&quot;a lot</h2>\n<p>o".toList ++ "f dashes&quot;/&gt;</p>\n".toList) := by decide +kernel
/-- example 62 -/
example : (toHtml false {} ("> Foo\n---\n".toList)).toOption = some ("<blockquote>\n<p>Foo</p>\n</blockquote>\n<hr />\n".toList) := by decide +kernel
/-- example 63 -/
example : (toHtml false {} ("> foo\nbar\n===\n".toList)).toOption = some ("<blockquote>\n<p>foo\nbar\n===</p>\n</blockquote>\n".toList) := by decide +kernel
/-- example 64 -/
example : (toHtml false {} ("- Foo\n---\n".toList)).toOption = some ("<ul>\n<li>Foo</li>\n</ul>\n<hr />\n".toList) := by decide +kernel
/-- example 65 -/
example : (toHtml false {} ("Foo\nBar\n---\n".toList)).toOption = some ("<h2>Foo\nBar</h2>\n".toList) := by decide +kernel

end CM
