import Verif.Model.Html
/-
Tests of the model: examples 196 to 260 of /repo/spec.txt, generated by tools/gen_examples.py.
-/
namespace CM

/-- example 196 -/
example : (toHtml false {} ("aaa     \nbbb     \n".toList)).toOption = some ("<p>aaa<br />\nbbb</p>\n".toList) := by decide +kernel
/-- example 197 -/
example : (toHtml false {} ("  \n\naaa\n  \n\n# aaa\n\n  \n".toList)).toOption = some ("<p>aaa</p>\n<h1>aaa</h1>\n".toList) := by decide +kernel
/-- example 198 -/
example : (toHtml false {} ("> # Foo\n> bar\n> baz\n".toList)).toOption = some ("<blockquote>\n<h1>Foo</h1>\n<p>bar\nbaz</p>\n</blockquote>\n".toList) := by decide +kernel
/-- example 199 -/
example : (toHtml false {} ("># Foo\n>bar\n> baz\n".toList)).toOption = some ("<blockquote>\n<h1>Foo</h1>\n<p>bar\nbaz</p>\n</blockquote>\n".toList) := by decide +kernel
/-- example 200 -/
example : (toHtml false {} ("   > # Foo\n   > bar\n > baz\n".toList)).toOption = some ("<blockquote>\n<h1>Foo</h1>\n<p>bar\nbaz</p>\n</blockquote>\n".toList) := by decide +kernel
/-- example 201 -/
example : (toHtml false {} ("    > # Foo\n    > bar\n    > baz\n".toList)).toOption = some ("<pre><code>&gt; # Foo\n&gt; bar\n&gt; baz\n</code></pre>\n".toList) := by decide +kernel
/-- example 202 -/
example : (toHtml false {} ("> # Foo\n> bar\nbaz\n".toList)).toOption = some ("<blockquote>\n<h1>Foo</h1>\n<p>bar\nbaz</p>\n</blockquote>\n".toList) := by decide +kernel
/-- example 203 -/
example : (toHtml false {} ("> bar\nbaz\n> foo\n".toList)).toOption = some ("<blockquote>\n<p>bar\nbaz\nfoo</p>\n</blockquote>\n".toList) := by decide +kernel
/-- example 204 -/
example : (toHtml false {} ("> foo\n---\n".toList)).toOption = some ("<blockquote>\n<p>foo</p>\n</blockquote>\n<hr />\n".toList) := by decide +kernel
/-- example 205 -/
example : (toHtml false {} ("> - foo\n- bar\n".toList)).toOption = some ("<blockquote>\n<ul>\n<li>foo</li>\n</ul>\n</blockquote>\n<ul>\n<li>".toList ++ "bar</li>\n</ul>\n".toList) := by decide +kernel
/-- example 206 -/
example : (toHtml false {} (">     foo\n    bar\n".toList)).toOption = some ("<blockquote>\n<pre><code>foo\n</code></pre>\n</blockquote>\n<pre".toList ++ "><code>bar\n</code></pre>\n".toList) := by decide +kernel
/-- example 207 -/
example : (toHtml false {} ("> ```\nfoo\n```\n".toList)).toOption = some ("<blockquote>\n<pre><code></code></pre>\n</blockquote>\n<p>foo</".toList ++ "p>\n<pre><code></code></pre>\n".toList) := by decide +kernel
/-- example 208 -/
example : (toHtml false {} ("> foo\n    - bar\n".toList)).toOption = some ("<blockquote>\n<p>foo\n- bar</p>\n</blockquote>\n".toList) := by decide +kernel
/-- example 209 -/
example : (toHtml false {} (">\n".toList)).toOption = some ("<blockquote>\n</blockquote>\n".toList) := by decide +kernel
/-- example 210 -/
example : (toHtml false {} (">\n>  \n> \n".toList)).toOption = some ("<blockquote>\n</blockquote>\n".toList) := by decide +kernel
/-- example 211 -/
example : (toHtml false {} (">\n> foo\n>  \n".toList)).toOption = some ("<blockquote>\n<p>foo</p>\n</blockquote>\n".toList) := by decide +kernel
/-- example 212 -/
example : (toHtml false {} ("> foo\n\n> bar\n".toList)).toOption = some ("<blockquote>\n<p>foo</p>\n</blockquote>\n<blockquote>\n<p>bar</p".toList ++ ">\n</blockquote>\n".toList) := by decide +kernel
/-- example 213 -/
example : (toHtml false {} ("> foo\n> bar\n".toList)).toOption = some ("<blockquote>\n<p>foo\nbar</p>\n</blockquote>\n".toList) := by decide +kernel
/-- example 214 -/
example : (toHtml false {} ("> foo\n>\n> bar\n".toList)).toOption = some ("<blockquote>\n<p>foo</p>\n<p>bar</p>\n</blockquote>\n".toList) := by decide +kernel
/-- example 215 -/
example : (toHtml false {} ("foo\n> bar\n".toList)).toOption = some ("<p>foo</p>\n<blockquote>\n<p>bar</p>\n</blockquote>\n".toList) := by decide +kernel
/-- example 216 -/
example : (toHtml false {} ("> aaa\n***\n> bbb\n".toList)).toOption = some ("<blockquote>\n<p>aaa</p>\n</blockquote>\n<hr />\n<blockquote>\n<p".toList ++ ">bbb</p>\n</blockquote>\n".toList) := by decide +kernel
/-- example 217 -/
example : (toHtml false {} ("> bar\nbaz\n".toList)).toOption = some ("<blockquote>\n<p>bar\nbaz</p>\n</blockquote>\n".toList) := by decide +kernel
/-- example 218 -/
example : (toHtml false {} ("> bar\n\nbaz\n".toList)).toOption = some ("<blockquote>\n<p>bar</p>\n</blockquote>\n<p>baz</p>\n".toList) := by decide +kernel
/-- example 219 -/
example : (toHtml false {} ("> bar\n>\nbaz\n".toList)).toOption = some ("<blockquote>\n<p>bar</p>\n</blockquote>\n<p>baz</p>\n".toList) := by decide +kernel
/-- example 220 -/
example : (toHtml false {} ("> > > foo\nbar\n".toList)).toOption = some ("<blockquote>\n<blockquote>\n<blockquote>\n<p>foo\nbar</p>\n</bloc".toList ++ "kquote>\n</blockquote>\n</blockquote>\n".toList) := by decide +kernel
/-- example 221 -/
example : (toHtml false {} (">>> foo\n> bar\n>>baz\n".toList)).toOption = some ("<blockquote>\n<blockquote>\n<blockquote>\n<p>foo\nbar\nbaz</p>\n</".toList ++ "blockquote>\n</blockquote>\n</blockquote>\n".toList) := by decide +kernel
/-- example 222 -/
example : (toHtml false {} (">     code\n\n>    not code\n".toList)).toOption = some ("<blockquote>\n<pre><code>code\n</code></pre>\n</blockquote>\n<bl".toList ++ "ockquote>\n<p>not code</p>\n</blockquote>\n".toList) := by decide +kernel
/-- example 223 -/
example : (toHtml false {} ("A paragraph\nwith two lines.\n\n    indented code\n\n> A block qu".toList ++ "ote.\n".toList)).toOption = some ("<p>A paragraph\nwith two lines.</p>\n<pre><code>indented code\n".toList ++ "</code></pre>\n<blockquote>\n<p>A block quote.</p>\n</blockquot".toList ++ "e>\n".toList) := by decide +kernel
/-- example 224 -/
example : (toHtml false {} ("1.  A paragraph\n    with two lines.\n\n        indented code\n\n".toList ++ "    > A block quote.\n".toList)).toOption = some ("<ol>\n<li>\n<p>A paragraph\nwith two lines.</p>\n<pre><code>inde".toList ++ "nted code\n</code></pre>\n<blockquote>\n<p>A block quote.</p>\n<".toList ++ "/blockquote>\n</li>\n</ol>\n".toList) := by decide +kernel
/-- example 225 -/
example : (toHtml false {} ("- one\n\n two\n".toList)).toOption = some ("<ul>\n<li>one</li>\n</ul>\n<p>two</p>\n".toList) := by decide +kernel
/-- example 226 -/
example : (toHtml false {} ("- one\n\n  two\n".toList)).toOption = some ("<ul>\n<li>\n<p>one</p>\n<p>two</p>\n</li>\n</ul>\n".toList) := by decide +kernel
/-- example 227 -/
example : (toHtml false {} (" -    one\n\n     two\n".toList)).toOption = some ("<ul>\n<li>one</li>\n</ul>\n<pre><code> two\n</code></pre>\n".toList) := by decide +kernel
/-- example 228 -/
example : (toHtml false {} (" -    one\n\n      two\n".toList)).toOption = some ("<ul>\n<li>\n<p>one</p>\n<p>two</p>\n</li>\n</ul>\n".toList) := by decide +kernel
/-- example 229 -/
example : (toHtml false {} ("   > > 1.  one\n>>\n>>     two\n".toList)).toOption = some ("<blockquote>\n<blockquote>\n<ol>\n<li>\n<p>one</p>\n<p>two</p>\n</".toList ++ "li>\n</ol>\n</blockquote>\n</blockquote>\n".toList) := by decide +kernel
/-- example 230 -/
example : (toHtml false {} (">>- one\n>>\n  >  > two\n".toList)).toOption = some ("<blockquote>\n<blockquote>\n<ul>\n<li>one</li>\n</ul>\n<p>two</p>".toList ++ "\n</blockquote>\n</blockquote>\n".toList) := by decide +kernel
/-- example 231 -/
example : (toHtml false {} ("-one\n\n2.two\n".toList)).toOption = some ("<p>-one</p>\n<p>2.two</p>\n".toList) := by decide +kernel
/-- example 232 -/
example : (toHtml false {} ("- foo\n\n\n  bar\n".toList)).toOption = some ("<ul>\n<li>\n<p>foo</p>\n<p>bar</p>\n</li>\n</ul>\n".toList) := by decide +kernel
/-- example 233 -/
example : (toHtml false {} ("1.  foo\n\n    ```\n    bar\n    ```\n\n    baz\n\n    > bam\n".toList)).toOption = some ("<ol>\n<li>\n<p>foo</p>\n<pre><code>bar\n</code></pre>\n<p>baz</p>".toList ++ "\n<blockquote>\n<p>bam</p>\n</blockquote>\n</li>\n</ol>\n".toList) := by decide +kernel
/-- example 234 -/
example : (toHtml false {} ("- Foo\n\n      bar\n\n\n      baz\n".toList)).toOption = some ("<ul>\n<li>\n<p>Foo</p>\n<pre><code>bar\n\n\nbaz\n</code></pre>\n</li".toList ++ ">\n</ul>\n".toList) := by decide +kernel
/-- example 235 -/
example : (toHtml false {} ("123456789. ok\n".toList)).toOption = some ("<ol start=\"123456789\">\n<li>ok</li>\n</ol>\n".toList) := by decide +kernel
/-- example 236 -/
example : (toHtml false {} ("1234567890. not ok\n".toList)).toOption = some ("<p>1234567890. not ok</p>\n".toList) := by decide +kernel
/-- example 237 -/
example : (toHtml false {} ("0. ok\n".toList)).toOption = some ("<ol start=\"0\">\n<li>ok</li>\n</ol>\n".toList) := by decide +kernel
/-- example 238 -/
example : (toHtml false {} ("003. ok\n".toList)).toOption = some ("<ol start=\"3\">\n<li>ok</li>\n</ol>\n".toList) := by decide +kernel
/-- example 239 -/
example : (toHtml false {} ("-1. not ok\n".toList)).toOption = some ("<p>-1. not ok</p>\n".toList) := by decide +kernel
/-- example 240 -/
example : (toHtml false {} ("- foo\n\n      bar\n".toList)).toOption = some ("<ul>\n<li>\n<p>foo</p>\n<pre><code>bar\n</code></pre>\n</li>\n</ul".toList ++ ">\n".toList) := by decide +kernel
/-- example 241 -/
example : (toHtml false {} ("  10.  foo\n\n           bar\n".toList)).toOption = some ("<ol start=\"10\">\n<li>\n<p>foo</p>\n<pre><code>bar\n</code></pre>".toList ++ "\n</li>\n</ol>\n".toList) := by decide +kernel
/-- example 242 -/
example : (toHtml false {} ("    indented code\n\nparagraph\n\n    more code\n".toList)).toOption = some ("<pre><code>indented code\n</code></pre>\n<p>paragraph</p>\n<pre".toList ++ "><code>more code\n</code></pre>\n".toList) := by decide +kernel
/-- example 243 -/
example : (toHtml false {} ("1.     indented code\n\n   paragraph\n\n       more code\n".toList)).toOption = some ("<ol>\n<li>\n<pre><code>indented code\n</code></pre>\n<p>paragrap".toList ++ "h</p>\n<pre><code>more code\n</code></pre>\n</li>\n</ol>\n".toList) := by decide +kernel
/-- example 244 -/
example : (toHtml false {} ("1.      indented code\n\n   paragraph\n\n       more code\n".toList)).toOption = some ("<ol>\n<li>\n<pre><code> indented code\n</code></pre>\n<p>paragra".toList ++ "ph</p>\n<pre><code>more code\n</code></pre>\n</li>\n</ol>\n".toList) := by decide +kernel
/-- example 245 -/
example : (toHtml false {} ("   foo\n\nbar\n".toList)).toOption = some ("<p>foo</p>\n<p>bar</p>\n".toList) := by decide +kernel
/-- example 246 -/
example : (toHtml false {} ("-    foo\n\n  bar\n".toList)).toOption = some ("<ul>\n<li>foo</li>\n</ul>\n<p>bar</p>\n".toList) := by decide +kernel
/-- example 247 -/
example : (toHtml false {} ("-  foo\n\n   bar\n".toList)).toOption = some ("<ul>\n<li>\n<p>foo</p>\n<p>bar</p>\n</li>\n</ul>\n".toList) := by decide +kernel
/-- example 248 -/
example : (toHtml false {} ("-\n  foo\n-\n  ```\n  bar\n  ```\n-\n      baz\n".toList)).toOption = some ("<ul>\n<li>foo</li>\n<li>\n<pre><code>bar\n</code></pre>\n</li>\n<l".toList ++ "i>\n<pre><code>baz\n</code></pre>\n</li>\n</ul>\n".toList) := by decide +kernel
/-- example 249 -/
example : (toHtml false {} ("-   \n  foo\n".toList)).toOption = some ("<ul>\n<li>foo</li>\n</ul>\n".toList) := by decide +kernel
/-- example 250 -/
example : (toHtml false {} ("-\n\n  foo\n".toList)).toOption = some ("<ul>\n<li></li>\n</ul>\n<p>foo</p>\n".toList) := by decide +kernel
/-- example 251 -/
example : (toHtml false {} ("- foo\n-\n- bar\n".toList)).toOption = some ("<ul>\n<li>foo</li>\n<li></li>\n<li>bar</li>\n</ul>\n".toList) := by decide +kernel
/-- example 252 -/
example : (toHtml false {} ("- foo\n-   \n- bar\n".toList)).toOption = some ("<ul>\n<li>foo</li>\n<li></li>\n<li>bar</li>\n</ul>\n".toList) := by decide +kernel
/-- example 253 -/
example : (toHtml false {} ("1. foo\n2.\n3. bar\n".toList)).toOption = some ("<ol>\n<li>foo</li>\n<li></li>\n<li>bar</li>\n</ol>\n".toList) := by decide +kernel
/-- example 254 -/
example : (toHtml false {} ("*\n".toList)).toOption = some ("<ul>\n<li></li>\n</ul>\n".toList) := by decide +kernel
/-- example 255 -/
example : (toHtml false {} ("foo\n*\n\nfoo\n1.\n".toList)).toOption = some ("<p>foo\n*</p>\n<p>foo\n1.</p>\n".toList) := by decide +kernel
/-- example 256 -/
example : (toHtml false {} (" 1.  A paragraph\n     with two lines.\n\n         indented cod".toList ++ "e\n\n     > A block quote.\n".toList)).toOption = some ("<ol>\n<li>\n<p>A paragraph\nwith two lines.</p>\n<pre><code>inde".toList ++ "nted code\n</code></pre>\n<blockquote>\n<p>A block quote.</p>\n<".toList ++ "/blockquote>\n</li>\n</ol>\n".toList) := by decide +kernel
/-- example 257 -/
example : (toHtml false {} ("  1.  A paragraph\n      with two lines.\n\n          indented ".toList ++ "code\n\n      > A block quote.\n".toList)).toOption = some ("<ol>\n<li>\n<p>A paragraph\nwith two lines.</p>\n<pre><code>inde".toList ++ "nted code\n</code></pre>\n<blockquote>\n<p>A block quote.</p>\n<".toList ++ "/blockquote>\n</li>\n</ol>\n".toList) := by decide +kernel
/-- example 258 -/
example : (toHtml false {} ("   1.  A paragraph\n       with two lines.\n\n           indent".toList ++ "ed code\n\n       > A block quote.\n".toList)).toOption = some ("<ol>\n<li>\n<p>A paragraph\nwith two lines.</p>\n<pre><code>inde".toList ++ "nted code\n</code></pre>\n<blockquote>\n<p>A block quote.</p>\n<".toList ++ "/blockquote>\n</li>\n</ol>\n".toList) := by decide +kernel
/-- example 259 -/
example : (toHtml false {} ("    1.  A paragraph\n        with two lines.\n\n            ind".toList ++ "ented code\n\n        > A block quote.\n".toList)).toOption = some ("<pre><code>1.  A paragraph\n    with two lines.\n\n        inde".toList ++ "nted code\n\n    &gt; A block quote.\n</code></pre>\n".toList) := by decide +kernel
/-- example 260 -/
example : (toHtml false {} ("  1.  A paragraph\nwith two lines.\n\n          indented code\n\n".toList ++ "      > A block quote.\n".toList)).toOption = some ("<ol>\n<li>\n<p>A paragraph\nwith two lines.</p>\n<pre><code>inde".toList ++ "nted code\n</code></pre>\n<blockquote>\n<p>A block quote.</p>\n<".toList ++ "/blockquote>\n</li>\n</ol>\n".toList) := by decide +kernel

end CM
