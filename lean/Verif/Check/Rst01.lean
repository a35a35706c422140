import Verif.Model.Main
/-
Tests of the model: /repo/commonmark/tests/rst_tests.py, generated by tools/gen_examples.py.
-/
namespace CM

/-- test_strong -/
example : (commonmark ("Hello **Strong**".toList) (lit "rst")).toOption.bind (·.value) = some ("\nHello **Strong**\n".toList) := by decide +kernel
/-- test_emphasis -/
example : (commonmark ("Hello *Emphasis*".toList) (lit "rst")).toOption.bind (·.value) = some ("\nHello *Emphasis*\n".toList) := by decide +kernel
/-- test_paragraph -/
example : (commonmark ("Hello paragraph".toList) (lit "rst")).toOption.bind (·.value) = some ("\nHello paragraph\n".toList) := by decide +kernel
/-- test_link -/
example : (commonmark ("[Link](http://example.com)".toList) (lit "rst")).toOption.bind (·.value) = some ("\n`Link <http://example.com>`_\n".toList) := by decide +kernel
/-- test_image -/
example : (commonmark ("![Image](http://placekitten.com/100/100)".toList) (lit "rst")).toOption.bind (·.value) = some ("\n.. image:: http://placekitten.com/100/100\n    :alt: Image\n".toList) := by decide +kernel
/-- test_code -/
example : (commonmark ("Test `inline code` with backticks".toList) (lit "rst")).toOption.bind (·.value) = some ("\nTest ``inline code`` with backticks\n".toList) := by decide +kernel
/-- test_code_block -/
example : (commonmark ("\n```python\n# code block\nprint '3 backticks or'\nprint 'indent".toList ++ " 4 spaces'\n```\n".toList) (lit "rst")).toOption.bind (·.value) = some ("\n.. code:: python\n\n    # code block\n    print '3 backticks o".toList ++ "r'\n    print 'indent 4 spaces'\n".toList) := by decide +kernel
/-- test_unordered_list -/
example : (commonmark ("\nThis is a list:\n* List item\n* List item\n* List item\n".toList) (lit "rst")).toOption.bind (·.value) = some ("\nThis is a list:\n\n* List item\n* List item\n* List item\n".toList) := by decide +kernel
/-- test_ordered_list -/
example : (commonmark ("\nThis is a ordered list:\n1. One\n2. Two\n3. Three\n".toList) (lit "rst")).toOption.bind (·.value) = some ("\nThis is a ordered list:\n\n#. One\n#. Two\n#. Three\n".toList) := by decide +kernel
/-- test_ordered_list_with_multi_line_items -/
example : (commonmark ("\nThis is an ordered list with multi-line items:\n1. First ite".toList ++ "m,\nwith lazy indentation.\n2. Second item,\n   with normal ind".toList ++ "entation.\n".toList) (lit "rst")).toOption.bind (·.value) = some ("\nThis is an ordered list with multi-line items:\n\n#. First it".toList ++ "em,\n   with lazy indentation.\n#. Second item,\n   with normal".toList ++ " indentation.\n".toList) := by decide +kernel
/-- test_block_quote -/
example : (commonmark ("\nBefore the blockquote:\n\n> The blockquote\n\nAfter the blockqu".toList ++ "ote\n".toList) (lit "rst")).toOption.bind (·.value) = some ("\nBefore the blockquote:\n\n    The blockquote\n\nAfter the block".toList ++ "quote\n".toList) := by decide +kernel
/-- test_heading -/
example : (commonmark ("\n# Heading 1\n\n## Heading 2\n\n### Heading 3\n\n#### Heading 4\n\n#".toList ++ "#### Heading 5\n\n###### Heading 6\n".toList) (lit "rst")).toOption.bind (·.value) = some ("\nHeading 1\n#########\n\nHeading 2\n*********\n\nHeading 3\n=======".toList ++ "==\n\nHeading 4\n---------\n\nHeading 5\n^^^^^^^^^\n\nHeading 6\n\"\"\"\"".toList ++ "\"\"\"\"\"\n".toList) := by decide +kernel
/-- test_multiple_paragraphs -/
example : (commonmark ("\nStart of first paragraph that\ncontinues on a new line\n\nThis".toList ++ " is the second paragraph\n".toList) (lit "rst")).toOption.bind (·.value) = some ("\nStart of first paragraph that\ncontinues on a new line\n\nThis".toList ++ " is the second paragraph\n".toList) := by decide +kernel

end CM
