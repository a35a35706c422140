import Verif.Model.Html
/-
Tests of the model: examples 66 to 130 of /repo/spec.txt, generated by tools/gen_examples.py.
-/
namespace CM

/-- example 66 -/
example : (toHtml false {} ("---\nFoo\n---\nBar\n---\nBaz\n".toList)).toOption = some ("<hr />\n<h2>Foo</h2>\n<h2>Bar</h2>\n<p>Baz</p>\n".toList) := by decide +kernel
/-- example 67 -/
example : (toHtml false {} ("\n====\n".toList)).toOption = some ("<p>====</p>\n".toList) := by decide +kernel
/-- example 68 -/
example : (toHtml false {} ("---\n---\n".toList)).toOption = some ("<hr />\n<hr />\n".toList) := by decide +kernel
/-- example 69 -/
example : (toHtml false {} ("- foo\n-----\n".toList)).toOption = some ("<ul>\n<li>foo</li>\n</ul>\n<hr />\n".toList) := by decide +kernel
/-- example 70 -/
example : (toHtml false {} ("    foo\n---\n".toList)).toOption = some ("<pre><code>foo\n</code></pre>\n<hr />\n".toList) := by decide +kernel
/-- example 71 -/
example : (toHtml false {} ("> foo\n-----\n".toList)).toOption = some ("<blockquote>\n<p>foo</p>\n</blockquote>\n<hr />\n".toList) := by decide +kernel
/-- example 72 -/
example : (toHtml false {} ("\\> foo\n------\n".toList)).toOption = some ("<h2>&gt; foo</h2>\n".toList) := by decide +kernel
/-- example 73 -/
example : (toHtml false {} ("Foo\n\nbar\n---\nbaz\n".toList)).toOption = some ("<p>Foo</p>\n<h2>bar</h2>\n<p>baz</p>\n".toList) := by decide +kernel
/-- example 74 -/
example : (toHtml false {} ("Foo\nbar\n\n---\n\nbaz\n".toList)).toOption = some ("<p>Foo\nbar</p>\n<hr />\n<p>baz</p>\n".toList) := by decide +kernel
/-- example 75 -/
example : (toHtml false {} ("Foo\nbar\n* * *\nbaz\n".toList)).toOption = some ("<p>Foo\nbar</p>\n<hr />\n<p>baz</p>\n".toList) := by decide +kernel
/-- example 76 -/
example : (toHtml false {} ("Foo\nbar\n\\---\nbaz\n".toList)).toOption = some ("<p>Foo\nbar\n---\nbaz</p>\n".toList) := by decide +kernel
/-- example 77 -/
example : (toHtml false {} ("    a simple\n      indented code block\n".toList)).toOption = some ("<pre><code>a simple\n  indented code block\n</code></pre>\n".toList) := by decide +kernel
/-- example 78 -/
example : (toHtml false {} ("  - foo\n\n    bar\n".toList)).toOption = some ("<ul>\n<li>\n<p>foo</p>\n<p>bar</p>\n</li>\n</ul>\n".toList) := by decide +kernel
/-- example 79 -/
example : (toHtml false {} ("1.  foo\n\n    - bar\n".toList)).toOption = some ("<ol>\n<li>\n<p>foo</p>\n<ul>\n<li>bar</li>\n</ul>\n</li>\n</ol>\n".toList) := by decide +kernel
/-- example 80 -/
example : (toHtml false {} ("    <a/>\n    *hi*\n\n    - one\n".toList)).toOption = some ("<pre><code>&lt;a/&gt;\n*hi*\n\n- one\n</code></pre>\n".toList) := by decide +kernel
/-- example 81 -/
example : (toHtml false {} ("    chunk1\n\n    chunk2\n  \n \n \n    chunk3\n".toList)).toOption = some ("<pre><code>chunk1\n\nchunk2\n\n\n\nchunk3\n</code></pre>\n".toList) := by decide +kernel
/-- example 82 -/
example : (toHtml false {} ("    chunk1\n      \n      chunk2\n".toList)).toOption = some ("<pre><code>chunk1\n  \n  chunk2\n</code></pre>\n".toList) := by decide +kernel
/-- example 83 -/
example : (toHtml false {} ("Foo\n    bar\n\n".toList)).toOption = some ("<p>Foo\nbar</p>\n".toList) := by decide +kernel
/-- example 84 -/
example : (toHtml false {} ("    foo\nbar\n".toList)).toOption = some ("<pre><code>foo\n</code></pre>\n<p>bar</p>\n".toList) := by decide +kernel
/-- example 85 -/
example : (toHtml false {} ("# Heading\n    foo\nHeading\n------\n    foo\n----\n".toList)).toOption = some ("<h1>Heading</h1>\n<pre><code>foo\n</code></pre>\n<h2>Heading</h".toList ++ "2>\n<pre><code>foo\n</code></pre>\n<hr />\n".toList) := by decide +kernel
/-- example 86 -/
example : (toHtml false {} ("        foo\n    bar\n".toList)).toOption = some ("<pre><code>    foo\nbar\n</code></pre>\n".toList) := by decide +kernel
/-- example 87 -/
example : (toHtml false {} ("\n    \n    foo\n    \n\n".toList)).toOption = some ("<pre><code>foo\n</code></pre>\n".toList) := by decide +kernel
/-- example 88 -/
example : (toHtml false {} ("    foo  \n".toList)).toOption = some ("<pre><code>foo  \n</code></pre>\n".toList) := by decide +kernel
/-- example 89 -/
example : (toHtml false {} ("```\n<\n >\n```\n".toList)).toOption = some ("<pre><code>&lt;\n &gt;\n</code></pre>\n".toList) := by decide +kernel
/-- example 90 -/
example : (toHtml false {} ("~~~\n<\n >\n~~~\n".toList)).toOption = some ("<pre><code>&lt;\n &gt;\n</code></pre>\n".toList) := by decide +kernel
/-- example 91 -/
example : (toHtml false {} ("``\nfoo\n``\n".toList)).toOption = some ("<p><code>foo</code></p>\n".toList) := by decide +kernel
/-- example 92 -/
example : (toHtml false {} ("```\naaa\n~~~\n```\n".toList)).toOption = some ("<pre><code>aaa\n~~~\n</code></pre>\n".toList) := by decide +kernel
/-- example 93 -/
example : (toHtml false {} ("~~~\naaa\n```\n~~~\n".toList)).toOption = some ("<pre><code>aaa\n```\n</code></pre>\n".toList) := by decide +kernel
/-- example 94 -/
example : (toHtml false {} ("````\naaa\n```\n``````\n".toList)).toOption = some ("<pre><code>aaa\n```\n</code></pre>\n".toList) := by decide +kernel
/-- example 95 -/
example : (toHtml false {} ("~~~~\naaa\n~~~\n~~~~\n".toList)).toOption = some ("<pre><code>aaa\n~~~\n</code></pre>\n".toList) := by decide +kernel
/-- example 96 -/
example : (toHtml false {} ("```\n".toList)).toOption = some ("<pre><code></code></pre>\n".toList) := by decide +kernel
/-- example 97 -/
example : (toHtml false {} ("`````\n\n```\naaa\n".toList)).toOption = some ("<pre><code>\n```\naaa\n</code></pre>\n".toList) := by decide +kernel
/-- example 98 -/
example : (toHtml false {} ("> ```\n> aaa\n\nbbb\n".toList)).toOption = some ("<blockquote>\n<pre><code>aaa\n</code></pre>\n</blockquote>\n<p>b".toList ++ "bb</p>\n".toList) := by decide +kernel
/-- example 99 -/
example : (toHtml false {} ("```\n\n  \n```\n".toList)).toOption = some ("<pre><code>\n  \n</code></pre>\n".toList) := by decide +kernel
/-- example 100 -/
example : (toHtml false {} ("```\n```\n".toList)).toOption = some ("<pre><code></code></pre>\n".toList) := by decide +kernel
/-- example 101 -/
example : (toHtml false {} (" ```\n aaa\naaa\n```\n".toList)).toOption = some ("<pre><code>aaa\naaa\n</code></pre>\n".toList) := by decide +kernel
/-- example 102 -/
example : (toHtml false {} ("  ```\naaa\n  aaa\naaa\n  ```\n".toList)).toOption = some ("<pre><code>aaa\naaa\naaa\n</code></pre>\n".toList) := by decide +kernel
/-- example 103 -/
example : (toHtml false {} ("   ```\n   aaa\n    aaa\n  aaa\n   ```\n".toList)).toOption = some ("<pre><code>aaa\n aaa\naaa\n</code></pre>\n".toList) := by decide +kernel
/-- example 104 -/
example : (toHtml false {} ("    ```\n    aaa\n    ```\n".toList)).toOption = some ("<pre><code>```\naaa\n```\n</code></pre>\n".toList) := by decide +kernel
/-- example 105 -/
example : (toHtml false {} ("```\naaa\n  ```\n".toList)).toOption = some ("<pre><code>aaa\n</code></pre>\n".toList) := by decide +kernel
/-- example 106 -/
example : (toHtml false {} ("   ```\naaa\n  ```\n".toList)).toOption = some ("<pre><code>aaa\n</code></pre>\n".toList) := by decide +kernel
/-- example 107 -/
example : (toHtml false {} ("```\naaa\n    ```\n".toList)).toOption = some ("<pre><code>aaa\n    ```\n</code></pre>\n".toList) := by decide +kernel
/-- example 108 -/
example : (toHtml false {} ("``` ```\naaa\n".toList)).toOption = some ("<p><code> </code>\naaa</p>\n".toList) := by decide +kernel
/-- example 109 -/
example : (toHtml false {} ("~~~~~~\naaa\n~~~ ~~\n".toList)).toOption = some ("<pre><code>aaa\n~~~ ~~\n</code></pre>\n".toList) := by decide +kernel
/-- example 110 -/
example : (toHtml false {} ("foo\n```\nbar\n```\nbaz\n".toList)).toOption = some ("<p>foo</p>\n<pre><code>bar\n</code></pre>\n<p>baz</p>\n".toList) := by decide +kernel
/-- example 111 -/
example : (toHtml false {} ("foo\n---\n~~~\nbar\n~~~\n# baz\n".toList)).toOption = some ("<h2>foo</h2>\n<pre><code>bar\n</code></pre>\n<h1>baz</h1>\n".toList) := by decide +kernel
/-- example 112 -/
example : (toHtml false {} ("```ruby\ndef foo(x)\n  return 3\nend\n```\n".toList)).toOption = some ("<pre><code class=\"language-ruby\">def foo(x)\n  return 3\nend\n<".toList ++ "/code></pre>\n".toList) := by decide +kernel
/-- example 113 -/
example : (toHtml false {} ("~~~~    ruby startline=3 $%@#$\ndef foo(x)\n  return 3\nend\n~~~".toList ++ "~~~~\n".toList)).toOption = some ("<pre><code class=\"language-ruby\">def foo(x)\n  return 3\nend\n<".toList ++ "/code></pre>\n".toList) := by decide +kernel
/-- example 114 -/
example : (toHtml false {} ("````;\n````\n".toList)).toOption = some ("<pre><code class=\"language-;\"></code></pre>\n".toList) := by decide +kernel
/-- example 115 -/
example : (toHtml false {} ("``` aa ```\nfoo\n".toList)).toOption = some ("<p><code>aa</code>\nfoo</p>\n".toList) := by decide +kernel
/-- example 116 -/
example : (toHtml false {} ("~~~ aa ``` ~~~\nfoo\n~~~\n".toList)).toOption = some ("<pre><code class=\"language-aa\">foo\n</code></pre>\n".toList) := by decide +kernel
/-- example 117 -/
example : (toHtml false {} ("```\n``` aaa\n```\n".toList)).toOption = some ("<pre><code>``` aaa\n</code></pre>\n".toList) := by decide +kernel
/-- example 118 -/
example : (toHtml false {} ("<table><tr><td>\n<pre>\n**Hello**,\n\n_world_.\n</pre>\n</td></tr>".toList ++ "</table>\n".toList)).toOption = some ("<table><tr><td>\n<pre>\n**Hello**,\n<p><em>world</em>.\n</pre></".toList ++ "p>\n</td></tr></table>\n".toList) := by decide +kernel
/-- example 119 -/
example : (toHtml false {} ("<table>\n  <tr>\n    <td>\n           hi\n    </td>\n  </tr>\n</ta".toList ++ "ble>\n\nokay.\n".toList)).toOption = some ("<table>\n  <tr>\n    <td>\n           hi\n    </td>\n  </tr>\n</ta".toList ++ "ble>\n<p>okay.</p>\n".toList) := by decide +kernel
/-- example 120 -/
example : (toHtml false {} (" <div>\n  *hello*\n         <foo><a>\n".toList)).toOption = some (" <div>\n  *hello*\n         <foo><a>\n".toList) := by decide +kernel
/-- example 121 -/
example : (toHtml false {} ("</div>\n*foo*\n".toList)).toOption = some ("</div>\n*foo*\n".toList) := by decide +kernel
/-- example 122 -/
example : (toHtml false {} ("<DIV CLASS=\"foo\">\n\n*Markdown*\n\n</DIV>\n".toList)).toOption = some ("<DIV CLASS=\"foo\">\n<p><em>Markdown</em></p>\n</DIV>\n".toList) := by decide +kernel
/-- example 123 -/
example : (toHtml false {} ("<div id=\"foo\"\n  class=\"bar\">\n</div>\n".toList)).toOption = some ("<div id=\"foo\"\n  class=\"bar\">\n</div>\n".toList) := by decide +kernel
/-- example 124 -/
example : (toHtml false {} ("<div id=\"foo\" class=\"bar\n  baz\">\n</div>\n".toList)).toOption = some ("<div id=\"foo\" class=\"bar\n  baz\">\n</div>\n".toList) := by decide +kernel
/-- example 125 -/
example : (toHtml false {} ("<div>\n*foo*\n\n*bar*\n".toList)).toOption = some ("<div>\n*foo*\n<p><em>bar</em></p>\n".toList) := by decide +kernel
/-- example 126 -/
example : (toHtml false {} ("<div id=\"foo\"\n*hi*\n".toList)).toOption = some ("<div id=\"foo\"\n*hi*\n".toList) := by decide +kernel
/-- example 127 -/
example : (toHtml false {} ("<div class\nfoo\n".toList)).toOption = some ("<div class\nfoo\n".toList) := by decide +kernel
/-- example 128 -/
example : (toHtml false {} ("<div *???-&&&-<---\n*foo*\n".toList)).toOption = some ("<div *???-&&&-<---\n*foo*\n".toList) := by decide +kernel
/-- example 129 -/
example : (toHtml false {} ("<div><a href=\"bar\">*foo*</a></div>\n".toList)).toOption = some ("<div><a href=\"bar\">*foo*</a></div>\n".toList) := by decide +kernel
/-- example 130 -/
example : (toHtml false {} ("<table><tr><td>\nfoo\n</td></tr></table>\n".toList)).toOption = some ("<table><tr><td>\nfoo\n</td></tr></table>\n".toList) := by decide +kernel

end CM
